import Verif.Model.R1CS
import Verif.Model.SparseProof
import Mathlib.Algebra.BigOperators.Ring.Finset

/-!
A simulator for `R1CSProof::prove`: it does not get the assignment, but it gets all challenges before it starts.
-/

namespace Spartan.Spec
open Spartan
variable {F G P : Type} [Field F] [AddCommGroup G] [Module F G]
  [DecidableEq F] [DecidableEq P] [DecidableEq G]

/-- Is the message the drawing of a challenge? -/
def isChal : Msg F P → Bool
  | .chal _ => true
  | _ => false

/-- The number of challenges drawn so far. -/
def numChal (tr : Tr F P) : Nat := tr.countP isChal

/-- The interactive protocol with the verifier's coins `c`: whatever was said, the `n`-th challenge is `c n`. -/
def withCoins (E : Env F G P) (c : Nat → F) : Env F G P := { E with hash := fun tr => c (numChal tr) }

/-- The shortest prefix of a transcript with `n` challenges. -/
def upTo : Nat → Tr F P → Tr F P
  | 0, _ => []
  | _, [] => []
  | n + 1, m :: T => m :: upTo (if isChal m then n else n + 1) T

/-- The coins a hash function gives along the transcript `T`: the `n`-th one is the hash of what was said up to and including
the `n`-th challenge label. -/
def coinsAlong (hash : Tr F P → F) (T : Tr F P) : Nat → F := fun n => hash (upTo n T)

/-- The program of the prover (`R1CSProof.prove`, see `prove_eq_proveWith`) with the tables of the first sum-check as an
argument. -/
def proveWith (E : Env F G P) (I : R1CS F) (tables : Out (Dense F × Dense F × Dense F)) (vars input : List F)
    (gens : R1CSGens G) (tr : Tr F P) (tape : Tape F) :
    Out (R1CSProof F P × List F × List F × Tr F P × Tape F) := do
  let tr := tr.protocol "R1CS proof"
  check (input.length < vars.length)
  let tr := tr.scalars "input" input
  let polyVars ← Dense.new vars
  let (commVars, blindsVars, tapeO) ← polyVars.commit E gens.pc (some tape)
  let tape := tapeO.getD tape
  let tr := tr.polyComm "poly_commitment" commVars
  let z := vars ++ [1] ++ input ++ List.replicate (vars.length - input.length - 1) 0
  let nx ← log2 I.numCons
  let ny ← log2 z.length
  let (tau, tr) := E.challengeVec tr "challenge_tau" nx
  let polyTau ← Dense.new (eqEvals tau)
  let (polyAz, polyBz, polyCz) ← tables
  let (sc1, rx, claims1, blind1, tr, tape) ← proveCubicAdditive E 0 0 nx polyTau polyAz polyBz polyCz
    (fun a b c d => a * (b * c - d)) gens.gens1 gens.gens4 tr tape
  let tauC := claims1.getD 0 0
  let AzC := claims1.getD 1 0
  let BzC := claims1.getD 2 0
  let CzC := claims1.getD 3 0
  let (AzB, tape) := tape.next
  let (BzB, tape) := tape.next
  let (CzB, tape) := tape.next
  let (prodB, tape) := tape.next
  let (pokCz, commCz, tr, tape) ← KnowledgeProof.prove E gens.gens1 tr tape CzC CzB
  let (proofProd, commAz, commBz, commProd, tr, tape) ←
    ProductProof.prove E gens.gens1 tr tape AzC AzB BzC BzB (AzC * BzC) prodB
  let tr := tr.point "comm_Az_claim" commAz
  let tr := tr.point "comm_Bz_claim" commBz
  let tr := tr.point "comm_Cz_claim" commCz
  let tr := tr.point "comm_prod_Az_Bz_claims" commProd
  let blindE1 := tauC * (prodB - CzB)
  let claimPost1 := (AzC * BzC - CzC) * tauC
  let (eq1, _, _, tr, tape) ←
    EqualityProof.prove E gens.gens1 tr tape claimPost1 blindE1 claimPost1 blind1
  let (rA, tr) := E.challenge tr "challenege_Az"
  let (rB, tr) := E.challenge tr "challenege_Bz"
  let (rC, tr) := E.challenge tr "challenege_Cz"
  let claim2 := rA * AzC + rB * BzC + rC * CzC
  let blind2 := rA * AzB + rB * BzB + rC * CzB
  let (eA, eB, eC) ← I.evalTable I.numCons z.length (eqEvals rx)
  check (eA.length = eB.length)
  check (eA.length = eC.length)
  let ABC := (List.range eA.length).map fun i =>
    rA * eA.getD i 0 + rB * eB.getD i 0 + rC * eC.getD i 0
  let polyZ ← Dense.new z
  let polyABC ← Dense.new ABC
  let (sc2, ry, claims2, blindPost2, tr, tape) ← proveQuad E claim2 blind2 ny polyZ polyABC
    (fun a b => a * b) gens.gens1 gens.gens3 tr tape
  check (1 ≤ ry.length)
  let ev ← polyVars.evaluate (ry.drop 1)
  let (blindEval, tape) := tape.next
  let (evalVars, commVarsAtRy, tr, tape) ← polyEvalProve E polyVars (some blindsVars) (ry.drop 1) ev
    (some blindEval) gens.pc tr tape
  let c0 := claims2.getD 0 0
  let c1 := claims2.getD 1 0
  let blindE2 := c1 * ((1 - ry.getD 0 0) * blindEval)
  let claimPost2 := c0 * c1
  let (eq2, _, _, tr, tape) ←
    EqualityProof.prove E gens.pc.gens1 tr tape claimPost2 blindE2 claimPost2 blindPost2
  pure (⟨commVars, sc1, commAz, commBz, commCz, commProd, pokCz, proofProd, eq1, sc2, commVarsAtRy,
    evalVars, eq2⟩, rx, ry, tr, tape)

/-- With the products of the matrices and the assignment as tables this is the prover. -/
theorem prove_eq_proveWith (E : Env F G P) (I : R1CS F) (vars input : List F) (gens : R1CSGens G) (tr : Tr F P)
    (tape : Tape F) :
    R1CSProof.prove E I vars input gens tr tape =
      proveWith E I (I.multiplyVec I.numCons
        (vars ++ [1] ++ input ++ List.replicate (vars.length - input.length - 1) 0).length
        (vars ++ [1] ++ input ++ List.replicate (vars.length - input.length - 1) 0)) vars input gens tr tape := rfl

/-- Two numbers with `rA a + rB b + rC a b = s`, if there are any. -/
def simPair (rA rB rC s : F) : F × F :=
  if rA ≠ 0 then (s / rA, 0) else if rB ≠ 0 then (0, s / rB) else (1, s / rC)

/-- The simulator.  It reads the challenges `rx`, `rA`, `rB`, `rC` off the coins and runs the prover's program for the all-zero
assignment, with the constant tables `a`, `b` and `a b` in the first sum-check. -/
def simulate (E : Env F G P) (c : Nat → F) (I : R1CS F) (input : List F) (gens : R1CSGens G) (tr : Tr F P) (tape : Tape F) :
    Out (R1CSProof F P × List F × List F × Tr F P × Tape F) := do
  let nx ← log2 I.numCons
  let n0 := numChal tr + nx
  let rx := (List.range nx).map fun i => c (n0 + 4 * i + 1)
  let rA := c (n0 + 4 * nx + 4)
  let rB := c (n0 + 4 * nx + 5)
  let rC := c (n0 + 4 * nx + 6)
  let vars := List.replicate I.numVars 0
  let z := vars ++ [1] ++ input ++ List.replicate (vars.length - input.length - 1) 0
  let (eA, eB, eC) ← I.evalTable I.numCons z.length (eqEvals rx)
  let s := ∑ i ∈ Finset.range z.length, z.getD i 0 * (rA * eA.getD i 0 + rB * eB.getD i 0 + rC * eC.getD i 0)
  let (a, b) := simPair rA rB rC s
  let const (x : F) := Dense.new (List.replicate I.numCons x)
  proveWith (withCoins E c) I (do pure (← const a, ← const b, ← const (a * b))) vars input gens tr tape

/-- The simulator for `NIZK::prove`: it appends what `NIZK::prove` appends and calls the simulator above. -/
def simulateNIZK (E : Env F G P) (c : Nat → F) (I : Inst F) (input : List F) (gens : R1CSGens G) (tr : Tr F P)
    (tape : Tape F) : Out (NIZK F P × Tr F P) := do
  let tr := tr.protocol "Spartan NIZK proof" ++ [.blob "R1CSInstanceDigest" I.digest]
  let (pf, rx, ry, tr, _) ← simulate E c I.inst input gens tr tape
  pure (⟨pf, rx, ry⟩, tr)

/-- The simulator for `SNARK::prove`.  The evaluation proof is about the public matrices, so it is produced honestly. -/
def simulateSNARK (E : Env F G P) (c : Nat → F) (I : Inst F) (comm : R1CSComm P) (decomm : MultiDense F)
    (input : List F) (gens : SNARKGens G) (tr : Tr F P) (tape : Tape F) : Out (SNARK F P × Tr F P) := do
  let tr := (tr.protocol "Spartan SNARK proof").r1csComm comm
  let (pf, rx, ry, tr, tape) ← simulate E c I.inst input gens.sat tr tape
  let ev ← I.inst.evaluate rx ry
  let (pe, tr, _) ← sparseProve (withCoins E c) decomm rx ry [ev.1, ev.2.1, ev.2.2] gens.eval (tr.evalClaims ev) tape
  pure (⟨pf, ev, pe⟩, tr)

end Spartan.Spec
