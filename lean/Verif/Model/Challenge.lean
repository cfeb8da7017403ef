import Verif.Model.Limbs
import Mathlib.Data.ZMod.Basic
import Verif.Lemmas.CurveOrder

/-!
How a transcript challenge becomes a scalar (`packages/Spartan-secq/src/transcript.rs`).
-/

namespace Spartan

/-- A buffer `[u8; 64]`.  `transcript.rs` l. 27. -/
abbrev Bytes64 : Type := {bs : List UInt8 // bs.length = 64}

/-- `challenge_scalar`, `transcript.rs` l. 26–30, and `RandomTape::random_scalar`, `random.rs` l. 20–22,
from the bytes that Merlin's `challenge_bytes` wrote into the buffer. -/
def challengeScalar (buf : Bytes64) : Limbs := paramsP.fromBytesWide buf.1

/-- The residue that the protocol code then computes with, as its canonical encoding shows it.
`transcript.rs` l. 29. -/
def challengeValue (buf : Bytes64) : ZMod secpP := (leNat (paramsP.toBytes (challengeScalar buf)) : ZMod secpP)

end Spartan
