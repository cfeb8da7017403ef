import Verif.Model.Limbs
import Mathlib.Algebra.BigOperators.Group.List.Basic
import Mathlib.Algebra.Field.Defs

/-!
Specification of the circom file formats (iden3 `r1csfile` and `wtns` documents) and of circom
constraint systems, independent of the readers.
-/

namespace Spartan.Spec

/-- A linear combination: (wire, coefficient) pairs; coefficients are integers below `2^256`. -/
abbrev LinComb := List (Nat × Nat)

/-- `A * B = C`. -/
structure Con where
  a : LinComb
  b : LinComb
  c : LinComb

/-- A field element: 32 bytes, little-endian. -/
def encField (x : Nat) : List UInt8 := leBytes 32 x

def encLinComb (l : LinComb) : List UInt8 :=
  leBytes 4 l.length ++ (l.map fun t => leBytes 4 t.1 ++ encField t.2).flatten

def encCon (c : Con) : List UInt8 := encLinComb c.a ++ (encLinComb c.b ++ encLinComb c.c)

/-- The numbers of the header section. -/
structure Head where
  prime : List UInt8
  nWires : Nat
  nPubOut : Nat
  nPubIn : Nat
  nPrvIn : Nat
  nLabels : Nat

def encHead (h : Head) (nCons : Nat) : List UInt8 :=
  leBytes 4 32 ++ (h.prime ++ (leBytes 4 h.nWires ++ (leBytes 4 h.nPubOut ++ (leBytes 4 h.nPubIn ++
    (leBytes 4 h.nPrvIn ++ (leBytes 8 h.nLabels ++ leBytes 4 nCons))))))

def encCons (cs : List Con) : List UInt8 := (cs.map encCon).flatten

def encMap (m : List Nat) : List UInt8 := (m.map (leBytes 8)).flatten

/-- A section: type, size, contents. -/
def encSection (s : Nat × List UInt8) : List UInt8 :=
  leBytes 4 s.1 ++ (leBytes 8 s.2.length ++ s.2)

def encSections (secs : List (Nat × List UInt8)) : List UInt8 := (secs.map encSection).flatten

/-- An r1cs file. -/
def encR1cs (secs : List (Nat × List UInt8)) : List UInt8 :=
  [0x72, 0x31, 0x63, 0x73] ++ (leBytes 4 1 ++ (leBytes 4 secs.length ++ encSections secs))

/-- A witness file; `size` is the size field of the witness section, which the format requires to be
`32 * ws.length`. -/
def encWtns (version : Nat) (prime : List UInt8) (size : Nat) (ws : List Nat) : List UInt8 :=
  [119, 116, 110, 115] ++ (leBytes 4 version ++ (leBytes 4 2 ++
    (leBytes 4 1 ++ (leBytes 8 40 ++ (leBytes 4 32 ++ (prime ++ (leBytes 4 ws.length ++
    (leBytes 4 2 ++ (leBytes 8 size ++ (ws.map encField).flatten)))))))))

variable {F : Type} [Field F]

/-- Value of a linear combination on a witness. -/
def evalLC (val : Nat → F) (l : LinComb) (w : List F) : F :=
  (l.map fun t => val t.2 * w.getD t.1 0).sum

/-- The constraints hold of the wire values `w`. -/
def ConsHold (val : Nat → F) (cs : List Con) (w : List F) : Prop :=
  ∀ c ∈ cs, evalLC val c.a w * evalLC val c.b w = evalLC val c.c w

/-- What a circom circuit with public values `x` states of a witness: wire 0 is one, the wires after
it are the public values, and the constraints hold. -/
def CircomSat (val : Nat → F) (cs : List Con) (x w : List F) : Prop :=
  w.getD 0 0 = 1 ∧ (w.drop 1).take x.length = x ∧ ConsHold val cs w

end Spartan.Spec
