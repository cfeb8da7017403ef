import Verif.Model.Bullet
import Verif.Model.Poly

/-! Derivation of the commitment generators. -/

namespace Spartan
variable {G : Type}

/-- The two external functions used to derive generators:
* `xof label i`: byte `i` of the SHAKE256 output stream for input
  `label ‖ compressed base point` (commitments.rs:17-21),
* `toPoint`: `AffinePoint::from_uniform_bytes` on a 128-byte block
  (modelled separately, see `Verif/Model/FieldOps.lean`). -/
structure GenSrc (G : Type) where
  xof : List UInt8 → Nat → UInt8
  toPoint : List UInt8 → G

/-- The `i`-th 128-byte block read from the stream (commitments.rs:24-26). -/
def GenSrc.block (S : GenSrc G) (label : List UInt8) (i : Nat) : List UInt8 :=
  (List.range 128).map fun j => S.xof label (128 * i + j)

/-- The vector `gens` after the loop (commitments.rs:24-27): `n+1` points. -/
def GenSrc.points (S : GenSrc G) (label : List UInt8) (n : Nat) : List G :=
  (List.range (n + 1)).map fun i => S.toPoint (S.block label i)

/-- `MultiCommitGens::new` (commitments.rs:16-34). -/
def Gens.new (S : GenSrc G) (n : Nat) (label : List UInt8) : Gens G :=
  { n := n, G := (S.points label n).take n, h := (S.points label n)[n]'(by simp [GenSrc.points]) }

/-- `DotProductProofGens::new` (nizk/mod.rs:415-418). -/
def DotGens.new (S : GenSrc G) (n : Nat) (label : List UInt8) : Out (DotGens G) :=
  DotGens.ofGens n (Gens.new S (n + 1) label)

/-- `PolyCommitmentGens::new` (dense_mlpoly.rs:30-36); `pow2` panics or wraps for
64 or more variables, which the model keeps (`pow2Code`). -/
def polyCommitGens (S : GenSrc G) (numVars : Nat) (label : List UInt8) : Out (DotGens G) := do
  let right := (factoredLens numVars).2
  let n ← pow2Code right
  DotGens.new S n label

end Spartan
