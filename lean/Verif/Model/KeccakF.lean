import Verif.Model.Merlin

/-!
The permutation below the transcript and below the generators: `keccak::f1600` of the keccak crate (0.1.4 in
`Cargo.lock`), which is not in `/repo` and is transcribed here.  `merlin` calls it on its 200 bytes, read as
little-endian words (`transmute_state`; WebAssembly is little-endian), `sha3` on its 25 words.

Words are numbers below `2^64`.  Loops that assign every entry of an array once are written as a map.
-/

namespace Spartan.KeccakF

/-- `RHO`.  External (keccak `lib.rs`), below `transcript.rs` l. 15–28 and `commitments.rs` l. 17–25. -/
def rho : List ℕ := [1, 3, 6, 10, 15, 21, 28, 36, 45, 55, 2, 14, 27, 41, 56, 8, 25, 43, 62, 18, 39, 61, 20, 44]

/-- `PI`.  External (keccak `lib.rs`), below `transcript.rs` l. 15–28 and `commitments.rs` l. 17–25. -/
def pi : List ℕ := [10, 7, 11, 17, 18, 3, 5, 16, 8, 21, 24, 4, 15, 23, 19, 13, 12, 2, 20, 14, 22, 9, 6, 1]

/-- `RC`.  External (keccak `lib.rs`), below `transcript.rs` l. 15–28 and `commitments.rs` l. 17–25. -/
def rc : List ℕ :=
  [0x0000000000000001, 0x0000000000008082, 0x800000000000808a, 0x8000000080008000,
   0x000000000000808b, 0x0000000080000001, 0x8000000080008081, 0x8000000000008009,
   0x000000000000008a, 0x0000000000000088, 0x0000000080008009, 0x000000008000000a,
   0x000000008000808b, 0x800000000000008b, 0x8000000000008089, 0x8000000000008003,
   0x8000000000008002, 0x8000000000000080, 0x000000000000800a, 0x800000008000000a,
   0x8000000080008081, 0x8000000000008080, 0x0000000080000001, 0x8000000080008008]

/-- `u64::rotate_left` by `k < 64`.  Used in `keccak_p`, below `transcript.rs` l. 15–28. -/
def rotateLeft (w k : ℕ) : ℕ := (w <<< k ||| w >>> (64 - k)) % 2 ^ 64

/-- The part `Theta` of `keccak_p`: the parities of the columns, then both loops over the state.
External (keccak `lib.rs`), below `transcript.rs` l. 15–28 and `commitments.rs` l. 17–25. -/
def theta (s : List ℕ) : List ℕ :=
  let array := (List.range 5).map fun x => (List.range 5).foldl (fun a y => a ^^^ s.getD (5 * y + x) 0) 0
  (List.range 25).map fun i =>
    s.getD i 0 ^^^ (array.getD ((i % 5 + 4) % 5) 0 ^^^ rotateLeft (array.getD ((i % 5 + 1) % 5) 0) 1)

/-- The part `Rho and pi` of `keccak_p`: one lane is carried from place to place.
External (keccak `lib.rs`), below `transcript.rs` l. 15–28 and `commitments.rs` l. 17–25. -/
def rhoPi (s : List ℕ) : List ℕ :=
  ((List.range 24).foldl (fun (c : List ℕ × ℕ) x =>
    (c.1.set (pi.getD x 0) (rotateLeft c.2 (rho.getD x 0)), c.1.getD (pi.getD x 0) 0)) (s, s.getD 1 0)).1

/-- The part `Chi` of `keccak_p`: each row from a copy of it.
External (keccak `lib.rs`), below `transcript.rs` l. 15–28 and `commitments.rs` l. 17–25. -/
def chi (s : List ℕ) : List ℕ :=
  (List.range 25).map fun i =>
    let y := 5 * (i / 5)
    s.getD i 0 ^^^ ((s.getD (y + (i % 5 + 1) % 5) 0 ^^^ (2 ^ 64 - 1)) &&& s.getD (y + (i % 5 + 2) % 5) 0)

/-- The part `Iota` of `keccak_p`.
External (keccak `lib.rs`), below `transcript.rs` l. 15–28 and `commitments.rs` l. 17–25. -/
def iota (rc : ℕ) (s : List ℕ) : List ℕ := s.set 0 (s.getD 0 0 ^^^ rc)

/-- `f1600`: `keccak_p` with all 24 rounds.
External (keccak `lib.rs`), below `transcript.rs` l. 15–28 and `commitments.rs` l. 17–25. -/
def f1600 (s : List ℕ) : List ℕ := rc.foldl (fun s r => iota r (chi (rhoPi (theta s)))) s

/-- The 25 words of 200 bytes.  `transmute_state` of merlin's `strobe.rs`, below `transcript.rs` l. 15–28. -/
def toWords (st : Merlin.KState) : List ℕ :=
  (List.range 25).map fun i => leNat ((List.range 8).map fun j => Merlin.byteAt st (8 * i + j))

/-- The 200 bytes of 25 words.  `transmute_state` of merlin's `strobe.rs`, below `transcript.rs` l. 15–28. -/
def ofWords (s : List ℕ) : Merlin.KState := fun j => UInt8.ofNat (s.getD (j.val / 8) 0 >>> (8 * (j.val % 8)))

/-- `f1600` on bytes.  Merlin `strobe.rs`, `run_f`, below `transcript.rs` l. 15–28. -/
def keccakBytes (st : Merlin.KState) : Merlin.KState := ofWords (f1600 (toWords st))

end Spartan.KeccakF
