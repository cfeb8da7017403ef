import Verif.Spec.Rounds
import Verif.Lemmas.DotLog
import Verif.Lemmas.Sigma
import Verif.Model.R1CS

/-! The group equations that an accepted proof satisfies, written with formal representations.

`M` is a module of formal linear combinations of the generators, `π : M → G` evaluates one in the
group, `rep` gives for each encoded point the combination its author knows (algebraic prover).  Each
list below collects, for one part of the verifier, the differences of the two sides of its group
equations; `π` maps each of them to zero when the proof is accepted.  A nonzero one is therefore a
nontrivial linear (discrete-logarithm) relation between the generators, computed from the proof.

A point that the verifier computes itself (`E.compress (π m)`) contributes the difference between its
representation and `m`. -/

namespace Spartan.Spec
variable {F G P M : Type} [Field F] [AddCommGroup G] [Module F G] [AddCommGroup M] [Module F M]
  [DecidableEq F] [DecidableEq P] [DecidableEq G]

/-- `rep p` represents the point encoded by `p`. -/
def IsRep (E : Env F G P) (rep : P → M) (π : M →ₗ[F] G) : Prop :=
  ∀ p g, E.decompress p = some g → π (rep p) = g

/-- `EqualityProof::verify`, challenge `c`. -/
def eqRels (rep : P → M) (h : M) (pf : EqualityProof F P) (c : F) (C1 C2 : P) : List M :=
  [pf.z • h - (c • (rep C1 - rep C2) + rep pf.alpha)]

/-- `ProductProof::verify` (second and third equation), challenge `c`. -/
def prodRels (rep : P → M) (g0 h : M) (pf : ProductProof F P) (c : F) (X Y Z : P) : List M :=
  [rep pf.beta + c • rep Y - (pf.z3 • g0 + pf.z4 • h),
   rep pf.delta + c • rep Z - (pf.z3 • rep X + pf.z5 • h)]

/-- `DotProductProof::verify`, challenge `c`. -/
def dotRels (rep : P → M) (g0 h : M) (gn : Gens M) (pf : DotProductProof F P) (c : F) (a : List F)
    (Cx Cy : P) : List M :=
  [c • rep Cx + rep pf.delta - (lc pf.z gn.G + pf.z_delta • gn.h),
   c • rep Cy + rep pf.beta - (dot pf.z a • g0 + pf.z_beta • h)]

/-- The rounds of `ZKSumcheckInstanceProof::verify`. -/
def zkRels (E : Env F G P) (rep : P → M) (π : M →ₗ[F] G) (g0 h : M) (gn : Gens M) (deg : Nat) :
    List P → List P → List (DotProductProof F P) → P → Tr F P → List M
  | cp :: cps, ce :: ces, pf :: pfs, claim, tr =>
    let tr := tr.point "comm_poly" cp
    let (r, tr) := E.challenge tr "challenge_nextround"
    let tr := (tr.point "comm_claim_per_round" claim).point "comm_eval" ce
    let (w0, tr) := E.challenge tr "combine_two_claims_to_one"
    let (w1, tr) := E.challenge tr "combine_two_claims_to_one"
    let m := w0 • rep claim + w1 • rep ce
    let target := E.compress (π m)
    let a := zkWeights w0 w1 r (deg + 1)
    let tr := dotTr tr cp target a pf.delta pf.beta
    (rep target - m) :: dotRels rep g0 h gn pf (E.hash tr) a cp target ++
      zkRels E rep π g0 h gn deg cps ces pfs ce tr
  | _, _, _, _, _ => []

/-- `DotProductProofLog::verify` with first challenge `r`, challenges `us` of the reduction and last
challenge `c`. -/
def logRels (rep : P → M) (g0 h : M) (Gv : List M) (pf : DotProductProofLog F P) (r : F) (us : List F)
    (c : F) (a : List F) (Cx Cy : P) : List M :=
  let Gamma := lc (us.map fun u => u * u) (pf.bullet.L.map rep) +
    lc (us.map fun u => u⁻¹ * u⁻¹) (pf.bullet.R.map rep) + (rep Cx + r • rep Cy)
  let ahat := dot a (sVec us)
  [ahat • (c • Gamma + rep pf.beta) + rep pf.delta -
    (pf.z1 • (lc (sVec us) Gv + ahat • r • g0) + pf.z2 • h)]

/-- `PolyEvalProof::verify`. -/
def polyRels (E : Env F G P) (rep : P → M) (π : M →ₗ[F] G) (g0 h : M) (Gv : List M)
    (pf : DotProductProofLog F P) (tr : Tr F P) (r : List F) (Czr : P) (comm : List P) : List M :=
  let tr := tr.protocol "polynomial evaluation proof"
  let (L, R) := factoredEvals r
  let m := lc L (comm.map rep)
  let Clz := E.compress (π m)
  let tr := dotLogTr0 tr Clz Czr R
  let us := (bulletChallenges E pf.bullet.L pf.bullet.R tr).1
  let c := E.hash ((((bulletChallenges E pf.bullet.L pf.bullet.R tr).2.point "delta" pf.delta).point
    "beta" pf.beta) ++ [.chal "c"])
  (rep Clz - m) :: logRels rep g0 h Gv pf (E.hash tr) us c R Clz Czr

/-- `R1CSProof::verify`: the code is run to obtain the challenges (compare `R1CSProof.verify`), and the
equations of its parts are collected. -/
def r1csRels (E : Env F G P) (rep : P → M) (π : M →ₗ[F] G) (gens : R1CSGens G) (gm : R1CSGens M)
    (g0 h : M) (pf : R1CSProof F P) (numVars numCons : Nat) (input : List F) (evals : F × F × F)
    (tr : Tr F P) : Out (List M) := do
  let tr := tr.protocol "R1CS proof"
  let tr := tr.scalars "input" input
  let tr := tr.polyComm "poly_commitment" pf.commVars
  let nx ← log2 numCons
  let ny ← log2 (2 * numVars)
  let (tau, tr) := E.challengeVec tr "challenge_tau" nx
  let claim1 := E.compress (← commit1 (0 : F) 0 gens.gens1)
  let e1 := zkRels E rep π g0 h gm.gens4 3 pf.sc1.commPolys pf.sc1.commEvals pf.sc1.proofs claim1 tr
  let (post1, rx, tr) ← zkVerify E pf.sc1 claim1 nx 3 gens.gens1 gens.gens4 tr
  let tr ← pf.pokCz.verify E gens.gens1 tr pf.commCz
  let tr ← pf.proofProd.verify E gens.gens1 tr pf.commAz pf.commBz pf.commProd
  let e2 := prodRels rep g0 h pf.proofProd (E.hash tr) pf.commAz pf.commBz pf.commProd
  let tr := tr.point "comm_Az_claim" pf.commAz
  let tr := tr.point "comm_Bz_claim" pf.commBz
  let tr := tr.point "comm_Cz_claim" pf.commCz
  let tr := tr.point "comm_prod_Az_Bz_claims" pf.commProd
  let tb ← tausBound rx tau
  let prodP ← E.decompressU pf.commProd
  let czP ← E.decompressU pf.commCz
  let exp1 := E.compress (tb • (prodP - czP))
  let tr ← pf.eq1.verify E gens.gens1 tr exp1 post1
  let e3 := (rep exp1 - tb • (rep pf.commProd - rep pf.commCz)) ::
    eqRels rep h pf.eq1 (E.hash tr) exp1 post1
  let (rA, tr) := E.challenge tr "challenege_Az"
  let (rB, tr) := E.challenge tr "challenege_Bz"
  let (rC, tr) := E.challenge tr "challenege_Cz"
  let pA ← E.decompressU pf.commAz
  let pB ← E.decompressU pf.commBz
  let pC ← E.decompressU pf.commCz
  let claim2 := E.compress (← msm [rA, rB, rC] [pA, pB, pC])
  let e4 := (rep claim2 - (rA • rep pf.commAz + rB • rep pf.commBz + rC • rep pf.commCz)) ::
    zkRels E rep π g0 h gm.gens3 2 pf.sc2.commPolys pf.sc2.commEvals pf.sc2.proofs claim2 tr
  let (post2, ry, tr) ← zkVerify E pf.sc2 claim2 ny 2 gens.gens1 gens.gens3 tr
  let e5 := polyRels E rep π g0 h gm.pc.gensn.G pf.evalVars tr (ry.drop 1) pf.commVarsAtRy pf.commVars
  let tr ← polyEvalVerify E pf.evalVars gens.pc tr (ry.drop 1) pf.commVarsAtRy pf.commVars
  let ln ← log2 numVars
  let inputEval ← sparseEvaluate ln (inputEntries input) (ry.drop 1)
  let pV ← E.decompressU pf.commVarsAtRy
  let cI ← commit1 inputEval 0 gens.pc.gens1
  let commZ ← msm [1 - ry.getD 0 0, ry.getD 0 0] [pV, cI]
  let exp2 := E.compress ((rA * evals.1 + rB * evals.2.1 + rC * evals.2.2) • commZ)
  let tr ← pf.eq2.verify E gens.gens1 tr exp2 post2
  let e6 := (rep exp2 - (rA * evals.1 + rB * evals.2.1 + rC * evals.2.2) •
      ((1 - ry.getD 0 0) • rep pf.commVarsAtRy + ry.getD 0 0 • inputEval • g0)) ::
    eqRels rep h pf.eq2 (E.hash tr) exp2 post2
  pure (rep claim1 :: e1 ++ e2 ++ e3 ++ e4 ++ e5 ++ e6)

/-- `NIZK::verify`. -/
def nizkRels (E : Env F G P) (rep : P → M) (π : M →ₗ[F] G) (gens : R1CSGens G) (gm : R1CSGens M)
    (g0 h : M) (pf : NIZK F P) (I : Inst F) (input : List F) (tr : Tr F P) : Out (List M) := do
  let tr := tr.protocol "Spartan NIZK proof"
  let tr := tr ++ [.blob "R1CSInstanceDigest" I.digest]
  let evals ← I.inst.evaluate pf.rx pf.ry
  r1csRels E rep π gens gm g0 h pf.sat I.inst.numVars I.inst.numCons input evals tr

end Spartan.Spec
