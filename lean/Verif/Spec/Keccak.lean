import Mathlib.Data.Fin.Basic
import Mathlib.Data.List.OfFn
import Mathlib.Data.Nat.Notation

/-!
Keccak with 1600-bit state, after FIPS 202 (sections 3.1 to 3.2 and 4), with the padding `pad10*1`
directly after the message (the original Keccak, as Ethereum uses it; SHA3 appends `01` first), and
Ethereum addresses.
-/

namespace Spartan.Spec.Keccak

/-- `A[x, y, z]`; indices are taken modulo 5 and 64. -/
abbrev State := Fin 5 → Fin 5 → Fin 64 → Bool

/-- Parity of a column. -/
def parity (A : State) (x : Fin 5) (z : Fin 64) : Bool :=
  A x 0 z ^^ A x 1 z ^^ A x 2 z ^^ A x 3 z ^^ A x 4 z

def theta (A : State) : State := fun x y z =>
  A x y z ^^ (parity A (x - 1) z ^^ parity A (x + 1) (z - 1))

/-- The lane visited at step `t` of the rotation step mapping. -/
def walk : ℕ → Fin 5 × Fin 5
  | 0 => (1, 0)
  | t + 1 => ((walk t).2, 2 * (walk t).1 + 3 * (walk t).2)

/-- The rotation offset of a lane: `(t + 1) (t + 2) / 2` for the lane visited at step `t < 24`, zero
for the lane `(0, 0)`. -/
def offset (x y : Fin 5) : ℕ :=
  match (List.range 24).find? (fun t => walk t = (x, y)) with
  | some t => (t + 1) * (t + 2) / 2
  | none => 0

def rho (A : State) : State := fun x y z => A x y (z - Fin.ofNat 64 (offset x y))

def pi (A : State) : State := fun x y z => A (x + 3 * y) x z

def chi (A : State) : State := fun x y z => A x y z ^^ (!(A (x + 1) y z) && A (x + 2) y z)

/-- The eight bit shift register of the round constants, as a number: shifted by one, and reduced by
`X^8 + X^6 + X^5 + X^4 + 1` when a bit leaves it. -/
def register : ℕ → ℕ
  | 0 => 1
  | t + 1 => if (2 * register t).testBit 8 then (2 * register t) ^^^ 0x171 else 2 * register t

def rc (t : ℕ) : Bool := (register (t % 255)).testBit 0

/-- Bit `z` of the constant of round `ir`: `rc (j + 7 ir)` at `z = 2 ^ j - 1`. -/
def roundConstant (ir : ℕ) (z : Fin 64) : Bool :=
  (List.range 7).any fun j => (z : ℕ) = 2 ^ j - 1 && rc (j + 7 * ir)

def iota (ir : ℕ) (A : State) : State := fun x y z =>
  if x = 0 ∧ y = 0 then A x y z ^^ roundConstant ir z else A x y z

def round (ir : ℕ) (A : State) : State := iota ir (chi (pi (rho (theta A))))

/-- `n` rounds. -/
def rounds : ℕ → State → State
  | 0, A => A
  | n + 1, A => round n (rounds n A)

/-- Keccak-f[1600]. -/
def keccakF (A : State) : State := rounds 24 A

/-- Bit `64 (5 y + x) + z` of the string is `A[x, y, z]`. -/
def ofBits (S : ℕ → Bool) : State := fun x y z => S (64 * (5 * y + x) + z)

def toBits (A : State) : List Bool :=
  List.ofFn fun i : Fin 1600 => A (Fin.ofNat 5 (i / 64)) (Fin.ofNat 5 (i / 320)) (Fin.ofNat 64 i)

/-- The rate in bits, for a capacity of 512. -/
def rate : ℕ := 1088

/-- `pad10*1`: a one, the fewest zeros, a one, up to a multiple of the rate. -/
def pad (m : List Bool) : List Bool :=
  m ++ [true] ++ List.replicate ((rate - (m.length + 2) % rate) % rate) false ++ [true]

/-- Absorbing one block: it is added to the first bits of the state, then the permutation. -/
def absorb (A : State) (block : List Bool) : State :=
  keccakF fun x y z => A x y z ^^ ofBits (fun i => block.getD i false) x y z

def blocks (P : List Bool) : List (List Bool) :=
  (List.range (P.length / rate)).map fun i => (P.drop (rate * i)).take rate

/-- The first `d ≤ rate` bits of the sponge on a bit string. -/
def keccak (d : ℕ) (m : List Bool) : List Bool :=
  (toBits ((blocks (pad m)).foldl absorb fun _ _ _ => false)).take d

/-- The bits of a byte string: least significant bit of each byte first. -/
def bytesToBits (bytes : List ℕ) : List Bool :=
  bytes.flatMap fun b => (List.range 8).map fun j => b.testBit j

/-- Byte `i` of a bit string. -/
def byteAt (bits : List Bool) (i : ℕ) : ℕ :=
  ((List.range 8).map fun j => if bits.getD (8 * i + j) false then 2 ^ j else 0).sum

/-- Keccak-256 on byte strings. -/
def keccak256 (bytes : List ℕ) : List ℕ :=
  (List.range 32).map (byteAt (keccak 256 (bytesToBits bytes)))

/-- The `n` bytes of a number, most significant first. -/
def beBytes (n v : ℕ) : List ℕ := (List.range n).map fun i => v / 256 ^ (n - 1 - i) % 256

/-- The number with the given bytes, most significant first. -/
def beNat (bytes : List ℕ) : ℕ := bytes.foldl (fun a b => 256 * a + b) 0

/-- The Ethereum address of the key with coordinates `x` and `y`: the last 20 bytes of the hash of the
64 bytes of the coordinates. -/
def ethAddress (x y : ℕ) : ℕ := beNat ((keccak256 (beBytes 32 x ++ beBytes 32 y)).drop 12)

end Spartan.Spec.Keccak
