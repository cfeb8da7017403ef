import Verif.Model.KeccakF
import Verif.Model.FieldOps
import Verif.Model.Group
import Verif.Model.Gens

/-!
The derivation of the commitment generators down to the hash function: `MultiCommitGens::new` with
`Shake256` of the sha3 crate (0.8.2 in `Cargo.lock`), which is not in `/repo` and is transcribed here.
Data goes through the buffers byte by byte instead of slice by slice.
-/

namespace Spartan.Shake

/-- `Sha3State`: 25 words.  External (sha3 `state.rs`), below `commitments.rs` l. 17–25. -/
abbrev Words : Type := List ℕ

/-- `Sha3State::absorb_block` on 136 bytes: 17 words are added, then the permutation.
External (sha3 `state.rs`), below `commitments.rs` l. 18–19. -/
def absorbBlock (s : Words) (block : List UInt8) : Words :=
  KeccakF.f1600 ((List.range 25).map fun i =>
    if i < 17 then s.getD i 0 ^^^ leNat ((block.drop (8 * i)).take 8) else s.getD i 0)

/-- `Shake256`: the state and the buffer of at most 135 bytes.
External (sha3 `lib.rs`), `commitments.rs` l. 17. -/
structure Shake where
  state : Words
  buffer : List UInt8

/-- `Shake256::default()`.  `commitments.rs` l. 17. -/
def new : Shake := ⟨List.replicate 25 0, []⟩

/-- One byte of `Input::input`: a full buffer is absorbed at once.
External (block-buffer `input`), `commitments.rs` l. 18–19. -/
def inputByte (s : Shake) (b : UInt8) : Shake :=
  let buffer := s.buffer ++ [b]
  if buffer.length = 136 then ⟨absorbBlock s.state buffer, []⟩ else ⟨s.state, buffer⟩

/-- `Input::input`.  `commitments.rs` l. 18–19. -/
def input (s : Shake) (data : List UInt8) : Shake := data.foldl inputByte s

/-- `apply_padding`: `1f` behind the data, zeros, and the last bit of the block set.
External (sha3 `macros.rs`, `paddings.rs`), `commitments.rs` l. 21. -/
def padBlock (buffer : List UInt8) : List UInt8 :=
  let block := buffer ++ 0x1f :: List.replicate (135 - buffer.length) 0
  block.set 135 (block.getD 135 0 ||| 0x80)

/-- `Sha3XofReader`.  External (sha3 `reader.rs`), `commitments.rs` l. 21. -/
structure Reader where
  state : Words
  offset : ℕ

/-- `ExtendableOutput::xof_result`.  `commitments.rs` l. 21. -/
def xofResult (s : Shake) : Reader := ⟨absorbBlock s.state (padBlock s.buffer), 0⟩

/-- One byte of `XofReader::read`: the permutation runs after the last byte of a block.
External (sha3 `reader.rs`), `commitments.rs` l. 25. -/
def readByte (r : Reader) : UInt8 × Reader :=
  (UInt8.ofNat (r.state.getD (r.offset / 8) 0 >>> (8 * (r.offset % 8))),
   if r.offset + 1 = 136 then ⟨KeccakF.f1600 r.state, 0⟩ else ⟨r.state, r.offset + 1⟩)

/-- `reader.read_exact` into a buffer of `n` bytes.  `commitments.rs` l. 25. -/
def read : ℕ → Reader → List UInt8 × Reader
  | 0, r => ([], r)
  | n + 1, r =>
    let (b, r) := readByte r
    let (bs, r) := read n r
    (b :: bs, r)

/-- `AffinePoint::generator()`, `affine.rs` l. 91–93 with `lib.rs` l. 44–60, as a point of the curve. -/
noncomputable def generator : Secq := .some _ _ Koblitz.secqG_on

/-- `from_encoded_point` on an uncompressed encoding: both coordinates must be canonical and on the curve.
External (primeorder `affine.rs`), called at `affine.rs` l. 227–239. -/
noncomputable def decodeUncompressed (bx bY : List UInt8) : Option Secq :=
  if leNat bx.reverse < secpN ∧ leNat bY.reverse < secpN then
    if h : ((leNat bY.reverse : ℕ) : ZMod secpN) ^ 2 = ((leNat bx.reverse : ℕ) : ZMod secpN) ^ 3 + 7 then
      some (.some _ _ (Koblitz.secq_nonsingular.mpr h))
    else none
  else none

/-- `AffinePoint::from_uniform_bytes`, `affine.rs` l. 215–242. -/
noncomputable def fromUniform (bytes : List UInt8) : Out Secq := fromUniformBytes decodeUncompressed (· + ·) bytes

/-- The loop of `MultiCommitGens::new`, `commitments.rs` l. 24–27, from a given state of the reader. -/
noncomputable def points : ℕ → Reader → Out (List Secq)
  | 0, _ => .ok []
  | k + 1, r => do
    let (bytes, r) := read 128 r
    let p ← fromUniform bytes
    let ps ← points k r
    pure (p :: ps)

/-- `MultiCommitGens::new`, `commitments.rs` l. 16–34. -/
noncomputable def multiCommitGensNew (n : ℕ) (label : List UInt8) : Out (Gens Secq) := do
  let shake := input (input new label) (secqCompress generator)
  let gens ← points (n + 1) (xofResult shake)
  match gens[n]? with
  | some h => pure ⟨n, gens.take n, h⟩
  | none => .error .panic

end Spartan.Shake
