import Verif.Model.R1CS

/-!
Vocabulary for C39: the `NIZK` verifier with its three assertions on proof contents reported as errors, and the
proofs that have the shape the verifier expects.
-/

namespace Spartan.Spec
variable {F G P : Type} [Field F] [AddCommGroup G] [Module F G]
  [DecidableEq F] [DecidableEq P] [DecidableEq G]

/-- `if !b { return Err(InternalError) }`. -/
def ensure (b : Prop) [Decidable b] : Out Unit := if b then .ok () else .error (.err .internalError)

/-- `DotProductProofLog::verify` (nizk/mod.rs:526-576) without the `assert_eq!(lhs, rhs)` in front of its `Err`
branch. -/
def softDotLog (E : Env F G P) (pf : DotProductProofLog F P) (n : Nat)
    (gens : DotGens G) (tr : Tr F P) (a : List F) (Cx Cy : P) : Out (Tr F P) := do
  check (gens.n = n)
  check (a.length = n)
  let tr := tr.protocol "dot product proof (log)"
  let tr := tr.point "Cx" Cx
  let tr := tr.point "Cy" Cy
  let tr := tr.scalars "a" a
  let (r, tr) := E.challenge tr "r"
  let g1s ← gens.gens1.scale r
  let Cx' ← E.unpack Cx
  let Cy' ← E.unpack Cy
  let Gamma := Cx' + r • Cy'
  let (ghat, Gammahat, ahat, tr) ← pf.bullet.verify E n a tr Gamma gens.gensn.G
  let tr := tr.point "delta" pf.delta
  let tr := tr.point "beta" pf.beta
  let (c, tr) := E.challenge tr "c"
  let beta' ← E.unpack pf.beta
  let delta' ← E.unpack pf.delta
  match g1s.G with
  | [] => .error .panic
  | Q :: _ =>
    let lhs := E.compress (ahat • (c • Gammahat + beta') + delta')
    let rhs := E.compress (pf.z1 • (ghat + ahat • Q) + pf.z2 • g1s.h)
    if lhs = rhs then pure tr else .error (.err .internalError)

/-- `PolyEvalProof::verify` (dense_mlpoly.rs) with it. -/
def softPolyEval (E : Env F G P) (pf : DotProductProofLog F P) (gens : DotGens G) (tr : Tr F P)
    (r : List F) (Czr : P) (comm : List P) : Out (Tr F P) := do
  let tr := tr.protocol "polynomial evaluation proof"
  let (L, R) := factoredEvals r
  let C ← comm.mapM E.decompressU
  let Clz := E.compress (← msm L C)
  softDotLog E pf R.length gens tr R Clz Czr

/-- `R1CSProof::verify` (r1csproof.rs:351-503) with it. -/
def softR1CS (E : Env F G P) (pf : R1CSProof F P) (numVars numCons : Nat) (input : List F)
    (evals : F × F × F) (gens : R1CSGens G) (tr : Tr F P) :
    Out (List F × List F × Tr F P) := do
  let tr := tr.protocol "R1CS proof"
  let tr := tr.scalars "input" input
  let tr := tr.polyComm "poly_commitment" pf.commVars
  let nx ← log2 numCons
  let ny ← log2 (2 * numVars)
  let (tau, tr) := E.challengeVec tr "challenge_tau" nx
  let claim1 := E.compress (← commit1 (0 : F) 0 gens.gens1)
  let (commPost1, rx, tr) ← zkVerify E pf.sc1 claim1 nx 3 gens.gens1 gens.gens4 tr
  let tr ← pf.pokCz.verify E gens.gens1 tr pf.commCz
  let tr ← pf.proofProd.verify E gens.gens1 tr pf.commAz pf.commBz pf.commProd
  let tr := tr.point "comm_Az_claim" pf.commAz
  let tr := tr.point "comm_Bz_claim" pf.commBz
  let tr := tr.point "comm_Cz_claim" pf.commCz
  let tr := tr.point "comm_prod_Az_Bz_claims" pf.commProd
  let tb ← tausBound rx tau
  let prodP ← E.decompressU pf.commProd
  let czP ← E.decompressU pf.commCz
  let expected1 := E.compress (tb • (prodP - czP))
  let tr ← pf.eq1.verify E gens.gens1 tr expected1 commPost1
  let (rA, tr) := E.challenge tr "challenege_Az"
  let (rB, tr) := E.challenge tr "challenege_Bz"
  let (rC, tr) := E.challenge tr "challenege_Cz"
  let pA ← E.decompressU pf.commAz
  let pB ← E.decompressU pf.commBz
  let pC ← E.decompressU pf.commCz
  let claim2 := E.compress (← msm [rA, rB, rC] [pA, pB, pC])
  let (commPost2, ry, tr) ← zkVerify E pf.sc2 claim2 ny 2 gens.gens1 gens.gens3 tr
  check (1 ≤ ry.length)
  let tr ← softPolyEval E pf.evalVars gens.pc tr (ry.drop 1) pf.commVarsAtRy pf.commVars
  let ln ← log2 numVars
  let inputEval ← sparseEvaluate ln (inputEntries input) (ry.drop 1)
  let pV ← E.decompressU pf.commVarsAtRy
  let cI ← commit1 inputEval 0 gens.pc.gens1
  let commZ ← msm [1 - ry.getD 0 0, ry.getD 0 0] [pV, cI]
  let expected2 := E.compress ((rA * evals.1 + rB * evals.2.1 + rC * evals.2.2) • commZ)
  let tr ← pf.eq2.verify E gens.gens1 tr expected2 commPost2
  pure (rx, ry, tr)

/-- `NIZK::verify` (lib.rs:555-594) with it, and with errors in place of `assert_eq!(rx, *claimed_rx)` and
`assert_eq!(ry, *claimed_ry)`. -/
def softNIZK (E : Env F G P) (pf : NIZK F P) (I : Inst F) (input : List F) (gens : R1CSGens G)
    (tr : Tr F P) : Out (Tr F P) := do
  let tr := tr.protocol "Spartan NIZK proof"
  let tr := tr ++ [.blob "R1CSInstanceDigest" I.digest]
  let evals ← I.inst.evaluate pf.rx pf.ry
  check (input.length = I.inst.numInputs)
  let (rx, ry, tr) ← softR1CS E pf.sat I.inst.numVars I.inst.numCons input evals gens tr
  ensure (rx = pf.rx)
  ensure (ry = pf.ry)
  pure tr

/-- The points of a sumcheck proof, without those of surplus round proofs. -/
def scPts (pf : ZKSumcheck F P) : List P :=
  pf.commPolys ++ pf.commEvals ++ (pf.proofs.take pf.commPolys.length).flatMap fun q => [q.delta, q.beta]

/-- The points of a proof. -/
def nizkPts (pf : NIZK F P) : List P :=
  pf.sat.commVars ++ scPts pf.sat.sc1 ++ scPts pf.sat.sc2 ++
    [pf.sat.commAz, pf.sat.commBz, pf.sat.commCz, pf.sat.commProd, pf.sat.commVarsAtRy,
      pf.sat.pokCz.alpha, pf.sat.proofProd.alpha, pf.sat.proofProd.beta, pf.sat.proofProd.delta,
      pf.sat.eq1.alpha, pf.sat.eq2.alpha, pf.sat.evalVars.delta, pf.sat.evalVars.beta] ++
    pf.sat.evalVars.bullet.L ++ pf.sat.evalVars.bullet.R

/-- A sumcheck proof of `n` rounds whose polynomials have `d` coefficients.  Surplus round proofs are ignored. -/
structure ScShape (pf : ZKSumcheck F P) (n d : Nat) : Prop where
  polys : pf.commPolys.length = n
  evals : pf.commEvals.length = n
  proofs : n ≤ pf.proofs.length
  coeffs : ∀ q ∈ pf.proofs.take n, q.z.length = d

/-- A proof of the shape expected for `2^k` constraints and `2^j` variables, all points of which decode. -/
structure NizkShape (E : Env F G P) (pf : NIZK F P) (k j : Nat) : Prop where
  rx : pf.rx.length = k
  ry : pf.ry.length = j + 1
  sc1 : ScShape pf.sat.sc1 k 4
  sc2 : ScShape pf.sat.sc2 (j + 1) 3
  comm : 2 ^ (j / 2) ≤ pf.sat.commVars.length
  bullet : pf.sat.evalVars.bullet.L.length ≤ pf.sat.evalVars.bullet.R.length
  points : ∀ p ∈ nizkPts pf, (E.decompress p).isSome

end Spartan.Spec
