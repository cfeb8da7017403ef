import Verif.Spec.Relations
import Verif.Model.SparseProof

/-! The group equations that an accepted `SNARK` proof satisfies, written with formal representations
(compare `Spec/Relations.lean`). -/

namespace Spartan.Spec
variable {F G P M : Type} [Field F] [AddCommGroup G] [Module F G] [AddCommGroup M] [Module F M]
  [DecidableEq F] [DecidableEq P] [DecidableEq G]

/-- Formal generators of a polynomial commitment: of the value, of the blinding factor, of the entries
of a row. -/
structure PcBasis (M : Type) where
  g0 : M
  h : M
  G : List M

/-- `PolyEvalProof::verify_plain` of the value `Zr`. -/
def plainRels (E : Env F G P) (rep : P → M) (π : M →ₗ[F] G) (b : PcBasis M)
    (pf : DotProductProofLog F P) (tr : Tr F P) (r : List F) (Zr : F) (comm : List P) : List M :=
  (rep (E.compress (π (Zr • b.g0))) - Zr • b.g0) ::
    polyRels E rep π b.g0 b.h b.G pf tr r (E.compress (π (Zr • b.g0))) comm

/-- Formal generators of the three commitments of the evaluation proof. -/
structure EvalBasis (M : Type) where
  ops : PcBasis M
  mem : PcBasis M
  derefs : PcBasis M

/-- `HashLayerProof::verify`: the code is run to obtain the challenges. -/
def hashRels (E : Env F G P) (rep : P → M) (π : M →ₗ[F] G) (gens : SparseGens G) (b : EvalBasis M)
    (pf : HashLayerProof F P) (randMem randOps : List F) (comm : SparseComm P) (cDerefs : List P)
    (tr : Tr F P) : Out (List M) := do
  let tr := (tr.protocol "Sparse polynomial hash layer proof").protocol "Derefs evaluation proof"
  let evals := padPow2 (pf.derefRow ++ pf.derefCol)
  let tr := tr.scalars "evals_ops_val" evals
  let (cs, v, tr) ← combineEvals E "challenge_combine_n_to_one" evals tr
  let tr := tr.scalar "joint_claim_eval" v
  let e1 := plainRels E rep π b.derefs pf.derefs tr (cs ++ randOps) v cDerefs
  let tr ← polyEvalVerifyPlain E pf.derefs gens.derefs tr (cs ++ randOps) v cDerefs
  let evOps := evalsOps pf.row pf.col pf.val
  let tr := tr.scalars "claim_evals_ops" evOps
  let (cs, v, tr) ← combineEvals E "challenge_combine_n_to_one" evOps tr
  let tr := tr.scalar "joint_claim_eval_ops" v
  let e2 := plainRels E rep π b.ops pf.ops tr (cs ++ randOps) v comm.ops
  let tr ← polyEvalVerifyPlain E pf.ops gens.ops tr (cs ++ randOps) v comm.ops
  let evMem := [pf.row.auditTs, pf.col.auditTs]
  let tr := tr.scalars "claim_evals_mem" evMem
  let (cs, v, tr) ← combineEvals E "challenge_combine_two_to_one" evMem tr
  let tr := tr.scalar "joint_claim_eval_mem" v
  let e3 := plainRels E rep π b.mem pf.mem tr (cs ++ randMem) v comm.mem
  pure (e1 ++ e2 ++ e3)

/-- `SparseMatPolyEvalProof::verify`. -/
def sparseRels (E : Env F G P) (rep : P → M) (π : M →ₗ[F] G) (gens : SparseGens G) (b : EvalBasis M)
    (pf : SparseEvalProof F P) (comm : SparseComm P) (rx ry evals : List F) (tr : Tr F P) :
    Out (List M) := do
  let tr := tr.protocol "Sparse polynomial evaluation proof"
  let (rxe, _) := equalize rx ry
  let tr := tr.derefsComm "comm_poly_row_col_ops_val" pf.derefs
  let (_, tr) := E.challengeVec tr "challenge_r_hash" 2
  let tr := tr.protocol "Sparse polynomial evaluation proof"
  let (_, randMem, _, _, randOps, tr) ←
    prodLayerVerify E pf.net.prod (nextPow2 comm.numOps) (2 ^ rxe.length) evals tr
  hashRels E rep π gens b pf.net.hash randMem randOps comm pf.derefs tr

/-- An honest commitment to the table `T`, row by row, without blinding factors. -/
def rowRels (rep : P → M) (Gv : List M) (T : List F) (comm : List P) : List M :=
  (List.range comm.length).map fun i =>
    (comm.map rep).getD i 0 - lc ((T.drop (i * Gv.length)).take Gv.length) Gv

/-- `SNARK::verify` with the commitment `comm` of `SNARK::encode`, whose tables are in `decomm`. -/
def snarkRels (E : Env F G P) (rep : P → M) (π : M →ₗ[F] G) (gens : SNARKGens G) (gm : R1CSGens M)
    (g0 h : M) (b : EvalBasis M) (pf : SNARK F P) (comm : R1CSComm P) (decomm : MultiDense F)
    (input : List F) (tr : Tr F P) : Out (List M) := do
  let tr := (tr.protocol "Spartan SNARK proof").r1csComm comm
  let e1 ← r1csRels E rep π gens.sat gm g0 h pf.sat comm.numVars comm.numCons input pf.evals tr
  let (rx, ry, tr) ← pf.sat.verify E comm.numVars comm.numCons input pf.evals gens.sat tr
  let tr := tr.evalClaims pf.evals
  let e2 ← sparseRels E rep π gens.eval b pf.eval comm.comm rx ry
    [pf.evals.1, pf.evals.2.1, pf.evals.2.2] tr
  pure (rowRels rep b.ops.G decomm.combOps.Z comm.comm.ops ++
    rowRels rep b.mem.G decomm.combMem.Z comm.comm.mem ++ e1 ++ e2)

end Spartan.Spec
