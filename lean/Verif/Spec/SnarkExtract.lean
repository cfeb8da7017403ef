import Verif.Spec.SnarkRels
import Verif.Spec.Extract
import Mathlib.LinearAlgebra.Prod

/-! Knowledge soundness of the SNARK: formal combinations of its generators.  `SNARKGens::new` draws
points from two streams, one for the satisfiability proof (label `gens_r1cs_sat`) and one for the
commitments to the matrices and for the evaluation proof (label `gens_r1cs_eval`). -/

namespace Spartan.Spec
variable {F G P : Type} [Field F] [AddCommGroup G] [Module F G]

/-- A formal combination of the generators of the two streams: `2^j` variables, and `2^J` entries in
the largest of the committed tables. -/
abbrev Comb2 (F : Type) (j J : Nat) := Comb F j × Comb F J

/-- The group element a combination stands for. -/
noncomputable def evalComb2 (j J : Nat) (s t : Nat → G) : Comb2 F j J →ₗ[F] G :=
  (evalComb j s).coprod (evalComb J t)

/-- Formal generators of the satisfiability proof, on the first stream. -/
def inSat (F : Type) [Field F] (j J : Nat) (g : Gens (Comb F j)) : Gens (Comb2 F j J) :=
  ⟨g.n, g.G.map fun m => (m, 0), (g.h, 0)⟩

/-- The layout of the satisfiability half of `SNARKGens::new`. -/
def satGens (F : Type) [Field F] (j J : Nat) : R1CSGens (Comb2 F j J) :=
  let f := formalGens F j
  ⟨inSat F j J f.gens1, inSat F j J f.gens3, inSat F j J f.gens4,
    ⟨f.pc.n, inSat F j J f.pc.gensn, inSat F j J f.pc.gens1⟩⟩

/-- Generators of a commitment to a table of `2^l` entries, on the second stream. -/
def tableBasis (F : Type) [Field F] (j J l : Nat) : PcBasis (Comb2 F j J) :=
  ⟨(0, unit F J (width l)), (0, unit F J (width l + 1)),
    (List.range (width l)).map fun i => (0, unit F J i)⟩

/-- Base-two logarithm of the size of the largest committed table: `2^(4+n)` entries for the operations
on three matrices of `2^n` entries, `2^(1+m)` for two memories of `2^m` cells. -/
def tabSize (m n : Nat) : Nat := max (4 + n) (1 + m)

/-- The layout of the evaluation half of `SNARKGens::new`: `2^n` entries per matrix, `2^m` memory
cells. -/
def evalBasis (F : Type) [Field F] (j J n m : Nat) : EvalBasis (Comb2 F j J) :=
  ⟨tableBasis F j J (4 + n), tableBasis F j J (1 + m), tableBasis F j J (3 + n)⟩

/-- Number of challenges of a SNARK proof with `2^k` constraints, `2^j` variables, `2^m` memory cells and
`2^n` entries per matrix: the satisfiability proof, the two hash challenges, the product argument of the
operations and of the memories, and the three openings. -/
def snarkRounds (k j m n : Nat) : Nat :=
  5 * k + 4 * j + (j - j / 2) + 13 + 2 + (13 * n + n * (n - 1) / 2 + if n = 0 then 0 else 6) +
    (5 * m + m * (m - 1) / 2) + (5 + ((3 + n) - (3 + n) / 2)) + (6 + ((4 + n) - (4 + n) / 2)) +
    (3 + ((1 + m) - (1 + m) / 2))

/-- The shape of the proofs that `SNARK::prove` returns and `SNARK::verify` does not check: in each of
the four openings the two vectors of folding commitments have equal length, and the opened values of
the hash layer are given for exactly three matrices. -/
structure SNARK.Shaped (pf : SNARK F P) : Prop where
  sat : pf.sat.evalVars.bullet.L.length = pf.sat.evalVars.bullet.R.length
  ops : pf.eval.net.hash.ops.bullet.L.length = pf.eval.net.hash.ops.bullet.R.length
  mem : pf.eval.net.hash.mem.bullet.L.length = pf.eval.net.hash.mem.bullet.R.length
  derefs : pf.eval.net.hash.derefs.bullet.L.length = pf.eval.net.hash.derefs.bullet.R.length
  rowAddr : pf.eval.net.hash.row.addr.length = 3
  rowTs : pf.eval.net.hash.row.readTs.length = 3
  colAddr : pf.eval.net.hash.col.addr.length = 3
  colTs : pf.eval.net.hash.col.readTs.length = 3
  val : pf.eval.net.hash.val.length = 3

end Spartan.Spec
