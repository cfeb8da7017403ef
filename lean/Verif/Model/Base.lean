import Mathlib.Algebra.Module.Basic
import Mathlib.Algebra.Field.Defs
import Mathlib.Algebra.BigOperators.Group.List.Basic

/-!
Common vocabulary of the protocol model: results that may fail, the Merlin
transcript, the random tape, the group interface.
Sources are cited relative to `/repo/packages`.
-/

namespace Spartan

/-- `ProofVerifyError` (Spartan-secq/src/errors.rs:4-10).  The payload of
`DecompressionError` is dropped (it is never built, see `unpack`). -/
inductive VErr
  | internalError
  | decompressionError
  deriving DecidableEq, Repr

/-- How a Rust call can fail to return a value: `Err e` or a panic
(failed `assert!`, `unwrap()` on `None`, index out of bounds).
`errors.rs` l. 4–16 (`ProofVerifyError`) and the assertions and `unwrap`s of the crate. -/
inductive Fail
  | err (e : VErr)
  | panic
  deriving DecidableEq, Repr

/-- Result of a Rust call.  The `Result<_, ProofVerifyError>` of `errors.rs` l. 4–16. -/
abbrev Out (α : Type) := Except Fail α

/-- `assert!(b)`: panics when `b` is false.
For example `commitments.rs` l. 76, 86, 93; `nizk/mod.rs` l. 308. -/
def check (b : Prop) [Decidable b] : Out Unit := if b then .ok () else .error .panic

/-- A message absorbed by the Merlin transcript (Spartan-secq/src/transcript.rs).
`chal` marks a challenge extraction, which also changes the STROBE state.
Simplification: scalars and points are kept as values instead of bytes. -/
inductive Msg (F P : Type)
  /-- `append_message(label, bytes)`; only ASCII constants occur in the code -/
  | bytes (label : String) (data : String)
  /-- `append_u64(label, n)` -/
  | u64 (label : String) (n : Nat)
  /-- `append_message(label, digest)` where the digest is an opaque byte string -/
  | blob (label : String) (data : List UInt8)
  | scalar (label : String) (x : F)
  | point (label : String) (p : P)
  | chal (label : String)
  deriving DecidableEq, Repr

/-- Transcript state = everything absorbed so far, oldest first.
The argument `transcript: &mut Transcript` of `transcript.rs` l. 13–37. -/
abbrev Tr (F P : Type) := List (Msg F P)

/-- External operations the protocol code calls:
* `compress`/`decompress`: SEC1 point encoding (`AffinePoint::compress`,
  `AffinePoint::decompress`, secq256k1/src/affine.rs),
* `hash`: Merlin's `challenge_bytes` followed by `Scalar::from_bytes_wide`
  (transcript.rs:26-30); an arbitrary function of the absorbed messages. -/
structure Env (F G P : Type) where
  compress : G → P
  decompress : P → Option G
  hash : Tr F P → F

/-- What the model assumes of the point encoding: decoding inverts encoding.
The encoding is the one of `group.rs` l. 9 and 15–37. -/
def Env.Lawful {F G P : Type} (E : Env F G P) : Prop :=
  ∀ g, E.decompress (E.compress g) = some g

/-- Random tape (random.rs): the stream of scalars still to be drawn.
`RandomTape` is seeded by the OS; the model allows every stream. -/
abbrev Tape (F : Type) := Nat → F

/-- `RandomTape::random_scalar` (random.rs:20-22): next value, rest of tape. -/
def Tape.next {F : Type} (t : Tape F) : F × Tape F := (t 0, fun i => t (i + 1))

/-- `RandomTape::random_vector` (random.rs:24-26). -/
def Tape.nextVec {F : Type} (t : Tape F) (n : Nat) : List F × Tape F :=
  ((List.range n).map t, fun i => t (i + n))

section tr
variable {F G P : Type}

/-- `append_protocol_name` (transcript.rs:14-16). -/
def Tr.protocol (tr : Tr F P) (name : String) : Tr F P := tr ++ [.bytes "protocol-name" name]

/-- `append_scalar` (transcript.rs:18-20). -/
def Tr.scalar (tr : Tr F P) (l : String) (x : F) : Tr F P := tr ++ [.scalar l x]

/-- `append_point` (transcript.rs:22-24). -/
def Tr.point (tr : Tr F P) (l : String) (p : P) : Tr F P := tr ++ [.point l p]

/-- `<[Scalar] as AppendToTranscript>::append_to_transcript` (transcript.rs:49-57). -/
def Tr.scalars (tr : Tr F P) (l : String) (xs : List F) : Tr F P :=
  tr ++ [.bytes l "begin_append_vector"] ++ xs.map (.scalar l) ++ [.bytes l "end_append_vector"]

/-- `challenge_scalar` (transcript.rs:26-30). -/
def Env.challenge (E : Env F G P) (tr : Tr F P) (l : String) : F × Tr F P :=
  (E.hash (tr ++ [.chal l]), tr ++ [.chal l])

/-- `challenge_vector` (transcript.rs:32-36). -/
def Env.challengeVec (E : Env F G P) (tr : Tr F P) (l : String) : Nat → List F × Tr F P
  | 0 => ([], tr)
  | n + 1 =>
    let (c, tr) := E.challenge tr l
    let (cs, tr) := E.challengeVec tr l n
    (c :: cs, tr)

/-- `CompressedGroupExt::unpack` (group.rs:17-26).  On failure the code builds
the error with `(*self.to_bytes()).try_into().unwrap()` into `[u8; 32]`; an
encoded point has 1, 33 or 65 bytes, so the conversion always fails and the
`unwrap` panics (see `Verif/Props/Group.lean`). -/
def Env.unpack (E : Env F G P) (p : P) : Out G :=
  match E.decompress p with
  | some g => .ok g
  | none => .error .panic

/-- `DecompressEncodedPoint::decompress` (group.rs:34-36): `Some(unpack().unwrap())`. -/
def Env.decompressU (E : Env F G P) (p : P) : Out G :=
  match E.unpack p with
  | .ok g => .ok g
  | .error _ => .error .panic

end tr

section alg
variable {F M : Type} [Field F] [AddCommGroup M] [Module F M]

/-- Linear combination `Σ sᵢ • pᵢ` over the common prefix of two lists.
What `vartime_multiscalar_mul` computes, `group.rs` l. 105–121. -/
def lc (ss : List F) (ps : List M) : M := (List.zipWith (fun s p => s • p) ss ps).sum

/-- Inner product of two scalar lists.
`compute_dotproduct`, `nizk/mod.rs` l. 307–310, without its assertion. -/
def dot (a b : List F) : F := lc a b

/-- `GroupElement::vartime_multiscalar_mul` (group.rs:108-120).  The code
enumerates the scalars and indexes `points[i]`: it panics when there are more
scalars than points and ignores surplus points.  That `multiexp` computes
the sum is proved of its algorithms (Model/Points, C122). -/
def msm : List F → List M → Out M
  | [], _ => .ok 0
  | _ :: _, [] => .error .panic
  | s :: ss, p :: ps =>
    match msm ss ps with
    | .ok r => .ok (s • p + r)
    | .error e => .error e

/-- `inner_product` (nizk/bullet.rs:257-267) and `compute_dotproduct`
(nizk/mod.rs:307-310, 435-438): asserts equal lengths. -/
def innerProduct (a b : List F) : Out F := do
  check (a.length = b.length)
  pure (dot a b)

/-- `Scalar::invert().unwrap()`.  For example `nizk/bullet.rs` l. 118. -/
def invertU [DecidableEq F] (x : F) : Out F := if x = 0 then .error .panic else .ok x⁻¹

end alg

/-- `MultiCommitGens` (commitments.rs:9-13). -/
structure Gens (Pt : Type) where
  n : Nat
  G : List Pt
  h : Pt

section gens
variable {F G : Type} [Field F] [AddCommGroup G] [Module F G]

/-- `MultiCommitGens::scale` (commitments.rs:44-50); indexes `0..n`. -/
def Gens.scale (g : Gens G) (s : F) : Out (Gens G) := do
  check (g.n ≤ g.G.length)
  pure { n := g.n, G := (g.G.take g.n).map (s • ·), h := g.h }

/-- `MultiCommitGens::split_at` (commitments.rs:52-67); `slice::split_at` panics past the end. -/
def Gens.splitAt (g : Gens G) (mid : Nat) : Out (Gens G × Gens G) := do
  check (mid ≤ g.G.length)
  pure ({ n := (g.G.take mid).length, G := g.G.take mid, h := g.h },
        { n := (g.G.drop mid).length, G := g.G.drop mid, h := g.h })

/-- `Commitments for Scalar` (commitments.rs:74-82). -/
def commit1 (x blind : F) (g : Gens G) : Out G := do
  check (g.n = 1)
  match g.G with
  | [] => .error .panic
  | g0 :: _ => msm [x, blind] [g0, g.h]

/-- `Commitments for [Scalar]`, `Vec<Scalar>` (commitments.rs:84-96). -/
def commitV (xs : List F) (blind : F) (g : Gens G) : Out G := do
  check (g.n = xs.length)
  let s ← msm xs g.G
  pure (s + blind • g.h)

end gens

end Spartan
