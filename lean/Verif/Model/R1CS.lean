import Verif.Model.Sumcheck
import Verif.Model.Gens

/-! R1CS instances, the satisfiability proof and the NIZK
(`Spartan-secq/src/r1csinstance.rs`, `r1csproof.rs`, `lib.rs`).

`usize` arithmetic is over natural numbers (sizes below 2⁶³). -/

namespace Spartan
variable {F G P : Type} [Field F] [AddCommGroup G] [Module F G]
  [DecidableEq F] [DecidableEq P] [DecidableEq G]

/-- `R1CSError` (errors.rs:18-32). -/
inductive RErr
  | nonPowerOfTwoCons
  | nonPowerOfTwoVars
  | invalidNumberOfInputs
  | invalidNumberOfVars
  | invalidScalar
  | invalidIndex
  deriving DecidableEq, Repr

/-! ### r1csinstance.rs -/

/-- `R1CSInstance` (r1csinstance.rs:19-26). -/
structure R1CS (F : Type) where
  numCons : Nat
  numVars : Nat
  numInputs : Nat
  A : SparseMat F
  B : SparseMat F
  C : SparseMat F

/-- A list of triples as matrix entries (r1csinstance.rs:113-121). -/
def entriesOf (M : List (Nat × Nat × F)) : List (Entry F) := M.map fun e => ⟨e.1, e.2.1, e.2.2⟩

/-- `R1CSInstance::new` (r1csinstance.rs:85-135). -/
def R1CS.new (numCons numVars numInputs : Nat) (A B C : List (Nat × Nat × F)) : Out (R1CS F) := do
  check (nextPow2 numCons = numCons)
  check (nextPow2 numVars = numVars)
  check (numInputs < numVars)
  let nx ← log2 numCons
  let ny ← log2 (2 * numVars)
  pure ⟨numCons, numVars, numInputs, ⟨nx, ny, entriesOf A⟩, ⟨nx, ny, entriesOf B⟩,
    ⟨nx, ny, entriesOf C⟩⟩

/-- `R1CSInstance::is_sat` (r1csinstance.rs:235-265). -/
def R1CS.isSat (I : R1CS F) (vars input : List F) : Out Bool := do
  check (vars.length = I.numVars)
  check (input.length = I.numInputs)
  let z := vars ++ [1] ++ input
  let n := I.numVars + I.numInputs + 1
  let Az ← I.A.multiplyVec I.numCons n z
  let Bz ← I.B.multiplyVec I.numCons n z
  let Cz ← I.C.multiplyVec I.numCons n z
  check (Az.length = I.numCons)
  check (Bz.length = I.numCons)
  check (Cz.length = I.numCons)
  let res := ((List.range I.numCons).map fun i =>
    if Az.getD i 0 * Bz.getD i 0 ≠ Cz.getD i 0 then 1 else 0).sum
  pure (decide (res = 0))

/-- `R1CSInstance::multiply_vec` (r1csinstance.rs:267-281). -/
def R1CS.multiplyVec (I : R1CS F) (numRows numCols : Nat) (z : List F) :
    Out (Dense F × Dense F × Dense F) := do
  check (numRows = I.numCons)
  check (z.length = numCols)
  check (numCols > I.numVars)
  let a ← I.A.multiplyVec numRows numCols z
  let pa ← Dense.new a
  let b ← I.B.multiplyVec numRows numCols z
  let pb ← Dense.new b
  let c ← I.C.multiplyVec numRows numCols z
  let pc ← Dense.new c
  pure (pa, pb, pc)

/-- `R1CSInstance::compute_eval_table_sparse` (r1csinstance.rs:283-297). -/
def R1CS.evalTable (I : R1CS F) (numRows numCols : Nat) (evals : List F) :
    Out (List F × List F × List F) := do
  check (numRows = I.numCons)
  check (numCols > I.numVars)
  let a ← I.A.evalTable evals numRows numCols
  let b ← I.B.evalTable evals numRows numCols
  let c ← I.C.evalTable evals numRows numCols
  pure (a, b, c)

/-- `R1CSInstance::evaluate` (r1csinstance.rs:299-302). -/
def R1CS.evaluate (I : R1CS F) (rx ry : List F) : Out (F × F × F) := do
  let a ← I.A.evaluate rx ry
  let b ← I.B.evaluate rx ry
  let c ← I.C.evaluate rx ry
  pure (a, b, c)

/-- Loop of `R1CSInstance::produce_synthetic_r1cs` (r1csinstance.rs:185-209): entries of the
three matrices for the rows `i, i+1, …` (`k` of them). -/
def synthLoop (numVars : Nat) (Z : List F) :
    Nat → Nat → Out (List (Entry F) × List (Entry F) × List (Entry F))
  | 0, _ => .ok ([], [], [])
  | k + 1, i => do
    let sizeZ := Z.length
    check (sizeZ ≠ 0)
    let za ← idx Z (i % sizeZ)
    let zb ← idx Z ((i + 2) % sizeZ)
    let ab := za * zb
    let cIdx := (i + 3) % sizeZ
    let cVal ← idx Z cIdx
    let ce ← if cVal = 0 then pure ⟨i, numVars, ab⟩
      else do
        let inv ← invertU cVal
        pure ⟨i, cIdx, ab * inv⟩
    let (A, B, C) ← synthLoop numVars Z k (i + 1)
    pure (⟨i, i % sizeZ, 1⟩ :: A, ⟨i, (i + 2) % sizeZ, 1⟩ :: B, ce :: C)

/-- `R1CSInstance::produce_synthetic_r1cs` (r1csinstance.rs:155-233).  `rnd` stands for the
values drawn from the OS generator. -/
def R1CS.synthetic (rnd : Tape F) (numCons numVars numInputs : Nat) :
    Out (R1CS F × List F × List F) := do
  let lc ← log2 numCons
  check (2 ^ lc = numCons)
  let lv ← log2 numVars
  check (2 ^ lv = numVars)
  check (numInputs < numVars)
  let sizeZ := numVars + numInputs + 1
  let Z := ((rnd.nextVec sizeZ).1).set numVars 1
  let (A, B, C) ← synthLoop numVars Z numCons 0
  let nx ← log2 numCons
  let ny ← log2 (2 * numVars)
  let inst : R1CS F := ⟨numCons, numVars, numInputs, ⟨nx, ny, A⟩, ⟨nx, ny, B⟩, ⟨nx, ny, C⟩⟩
  let b ← inst.isSat (Z.take numVars) (Z.drop (numVars + 1))
  check (b = true)
  pure (inst, Z.take numVars, Z.drop (numVars + 1))

/-! ### lib.rs: assignments and instances -/

/-- What instance construction uses from outside: `Scalar::from_bytes` (modelled at limb level in
`Model/Limbs.lean`) and `R1CSInstance::get_digest` (bincode and zlib, r1csinstance.rs:149-153). -/
structure Codec (F : Type) where
  fromBytes : List UInt8 → Option F
  digest : R1CS F → List UInt8

/-- `Assignment::new` (lib.rs:64-88). -/
def assignmentNew (K : Codec F) : List (List UInt8) → Except RErr (List F)
  | [] => .ok []
  | v :: vs =>
    match K.fromBytes v with
    | none => .error .invalidScalar
    | some x =>
      match assignmentNew K vs with
      | .ok xs => .ok (x :: xs)
      | .error e => .error e

/-- `Assignment::pad` (lib.rs:90-104). -/
def assignmentPad (vars : List F) (len : Nat) : Out (List F) := do
  check (len > vars.length)
  pure (vars ++ List.replicate (len - vars.length) 0)

/-- Padding step shared by `is_sat`, `SNARK::prove` and `NIZK::prove` (lib.rs:245-254, 360-369,
518-527). -/
def padVars (vars : List F) (numVars : Nat) : Out (List F) :=
  if numVars > vars.length then assignmentPad vars numVars else .ok vars

/-- `Instance` (lib.rs:113-119). -/
structure Inst (F : Type) where
  inst : R1CS F
  digest : List UInt8

/-- Padded number of variables (lib.rs:132-143 and, in another order, 289-295, 476-482). -/
def varsPadded (numVars numInputs : Nat) : Nat :=
  let n := max numVars (numInputs + 1)
  if nextPow2 n ≠ n then nextPow2 n else n

/-- Padded number of constraints (lib.rs:145-158): the second `if` tests and uses the unpadded
`num_cons`. -/
def consPadded (numCons : Nat) : Nat :=
  let n := if numCons = 0 ∨ numCons = 1 then 2 else numCons
  if nextPow2 numCons ≠ numCons then nextPow2 numCons else n

/-- Conversion of the entries (lib.rs:166-189). -/
def convEntries (K : Codec F) (numCons numVars numInputs nvp : Nat) :
    List (Nat × Nat × List UInt8) → Except RErr (List (Nat × Nat × F))
  | [] => .ok []
  | (row, col, bytes) :: es =>
    if row ≥ numCons then .error .invalidIndex
    else if col ≥ numVars + 1 + numInputs then .error .invalidIndex
    else match K.fromBytes bytes with
      | none => .error .invalidScalar
      | some v =>
        match convEntries K numCons numVars numInputs nvp es with
        | .error e => .error e
        | .ok m => .ok ((row, if col ≥ numVars then col + nvp - numVars else col, v) :: m)

/-- `bytes_to_scalar` in `Instance::new` (lib.rs:163-200). -/
def bytesToScalar (K : Codec F) (numCons numVars numInputs nvp ncp : Nat)
    (tups : List (Nat × Nat × List UInt8)) : Except RErr (List (Nat × Nat × F)) :=
  match convEntries K numCons numVars numInputs nvp tups with
  | .error e => .error e
  | .ok m =>
    .ok (if numCons = 0 ∨ numCons = 1 then
      m ++ (List.range (ncp - tups.length)).map fun i => (tups.length + i, numVars, 0)
    else m)

/-- `Instance::new` (lib.rs:123-229). -/
def Inst.new (K : Codec F) (numCons numVars numInputs : Nat)
    (A B C : List (Nat × Nat × List UInt8)) : Out (Except RErr (Inst F)) :=
  let nvp := varsPadded numVars numInputs
  let ncp := consPadded numCons
  match bytesToScalar K numCons numVars numInputs nvp ncp A with
  | .error e => .ok (.error e)
  | .ok A' =>
  match bytesToScalar K numCons numVars numInputs nvp ncp B with
  | .error e => .ok (.error e)
  | .ok B' =>
  match bytesToScalar K numCons numVars numInputs nvp ncp C with
  | .error e => .ok (.error e)
  | .ok C' => do
    let inst ← R1CS.new ncp nvp numInputs A' B' C'
    pure (.ok ⟨inst, K.digest inst⟩)

/-- `Instance::is_sat` (lib.rs:232-261). -/
def Inst.isSat (I : Inst F) (vars inputs : List F) : Out (Except RErr Bool) :=
  if vars.length > I.inst.numVars then .ok (.error .invalidNumberOfInputs)
  else if inputs.length ≠ I.inst.numInputs then .ok (.error .invalidNumberOfInputs)
  else do
    let pv ← padVars vars I.inst.numVars
    let b ← I.inst.isSat pv inputs
    pure (.ok b)

/-! ### r1csproof.rs -/

/-- `R1CSProof` (r1csproof.rs:22-38). -/
structure R1CSProof (F P : Type) where
  commVars : List P
  sc1 : ZKSumcheck F P
  commAz : P
  commBz : P
  commCz : P
  commProd : P
  pokCz : KnowledgeProof F P
  proofProd : ProductProof F P
  eq1 : EqualityProof F P
  sc2 : ZKSumcheck F P
  commVarsAtRy : P
  evalVars : DotProductProofLog F P
  eq2 : EqualityProof F P

/-- `R1CSGens` (r1csproof.rs:40-44, 61-64): `gens_sc.gens_1`, `gens_3`, `gens_4` and `gens_pc`. -/
structure R1CSGens (G : Type) where
  gens1 : Gens G
  gens3 : Gens G
  gens4 : Gens G
  pc : DotGens G

/-- `R1CSGens::new` and `R1CSSumcheckGens::new` (r1csproof.rs:48-58, 67-72). -/
def R1CSGens.new (S : GenSrc G) (label : List UInt8) (numVars : Nat) : Out (R1CSGens G) := do
  let k ← log2 numVars
  let pc ← polyCommitGens S k label
  pure ⟨pc.gens1, Gens.new S 3 label, Gens.new S 4 label, pc⟩

/-- `R1CSProof::prove` (r1csproof.rs:143-348).  The assertions that the four tables have length
one after phase one hold by construction of `scBind` and are not repeated. -/
def R1CSProof.prove (E : Env F G P) (I : R1CS F) (vars input : List F) (gens : R1CSGens G)
    (tr : Tr F P) (tape : Tape F) :
    Out (R1CSProof F P × List F × List F × Tr F P × Tape F) := do
  let tr := tr.protocol "R1CS proof"
  check (input.length < vars.length)
  let tr := tr.scalars "input" input
  let polyVars ← Dense.new vars
  let (commVars, blindsVars, tapeO) ← polyVars.commit E gens.pc (some tape)
  let tape := tapeO.getD tape
  let tr := tr.polyComm "poly_commitment" commVars
  let z := vars ++ [1] ++ input ++ List.replicate (vars.length - input.length - 1) 0
  let nx ← log2 I.numCons
  let ny ← log2 z.length
  let (tau, tr) := E.challengeVec tr "challenge_tau" nx
  let polyTau ← Dense.new (eqEvals tau)
  let (polyAz, polyBz, polyCz) ← I.multiplyVec I.numCons z.length z
  let (sc1, rx, claims1, blind1, tr, tape) ← proveCubicAdditive E 0 0 nx polyTau polyAz polyBz polyCz
    (fun a b c d => a * (b * c - d)) gens.gens1 gens.gens4 tr tape
  let tauC := claims1.getD 0 0
  let AzC := claims1.getD 1 0
  let BzC := claims1.getD 2 0
  let CzC := claims1.getD 3 0
  let (AzB, tape) := tape.next
  let (BzB, tape) := tape.next
  let (CzB, tape) := tape.next
  let (prodB, tape) := tape.next
  let (pokCz, commCz, tr, tape) ← KnowledgeProof.prove E gens.gens1 tr tape CzC CzB
  let (proofProd, commAz, commBz, commProd, tr, tape) ←
    ProductProof.prove E gens.gens1 tr tape AzC AzB BzC BzB (AzC * BzC) prodB
  let tr := tr.point "comm_Az_claim" commAz
  let tr := tr.point "comm_Bz_claim" commBz
  let tr := tr.point "comm_Cz_claim" commCz
  let tr := tr.point "comm_prod_Az_Bz_claims" commProd
  let blindE1 := tauC * (prodB - CzB)
  let claimPost1 := (AzC * BzC - CzC) * tauC
  let (eq1, _, _, tr, tape) ←
    EqualityProof.prove E gens.gens1 tr tape claimPost1 blindE1 claimPost1 blind1
  let (rA, tr) := E.challenge tr "challenege_Az"
  let (rB, tr) := E.challenge tr "challenege_Bz"
  let (rC, tr) := E.challenge tr "challenege_Cz"
  let claim2 := rA * AzC + rB * BzC + rC * CzC
  let blind2 := rA * AzB + rB * BzB + rC * CzB
  let (eA, eB, eC) ← I.evalTable I.numCons z.length (eqEvals rx)
  check (eA.length = eB.length)
  check (eA.length = eC.length)
  let ABC := (List.range eA.length).map fun i =>
    rA * eA.getD i 0 + rB * eB.getD i 0 + rC * eC.getD i 0
  let polyZ ← Dense.new z
  let polyABC ← Dense.new ABC
  let (sc2, ry, claims2, blindPost2, tr, tape) ← proveQuad E claim2 blind2 ny polyZ polyABC
    (fun a b => a * b) gens.gens1 gens.gens3 tr tape
  check (1 ≤ ry.length)
  let ev ← polyVars.evaluate (ry.drop 1)
  let (blindEval, tape) := tape.next
  let (evalVars, commVarsAtRy, tr, tape) ← polyEvalProve E polyVars (some blindsVars) (ry.drop 1) ev
    (some blindEval) gens.pc tr tape
  let c0 := claims2.getD 0 0
  let c1 := claims2.getD 1 0
  let blindE2 := c1 * ((1 - ry.getD 0 0) * blindEval)
  let claimPost2 := c0 * c1
  let (eq2, _, _, tr, tape) ←
    EqualityProof.prove E gens.pc.gens1 tr tape claimPost2 blindE2 claimPost2 blindPost2
  pure (⟨commVars, sc1, commAz, commBz, commCz, commProd, pokCz, proofProd, eq1, sc2, commVarsAtRy,
    evalVars, eq2⟩, rx, ry, tr, tape)

/-- `taus_bound_rx` in `R1CSProof::verify` (r1csproof.rs:404-406); `tau[i]` panics past the end. -/
def tausBound (rx tau : List F) : Out F := do
  check (rx.length ≤ tau.length)
  pure ((List.zipWith (fun r t => r * t + (1 - r) * (1 - t)) rx tau).prod)

/-- The sparse polynomial of the constant and the inputs (r1csproof.rs:458-465). -/
def inputEntries (input : List F) : List (Nat × F) :=
  (0, 1) :: (List.range input.length).map fun i => (i + 1, input.getD i 0)

/-- `R1CSProof::verify` (r1csproof.rs:350-495). -/
def R1CSProof.verify (E : Env F G P) (pf : R1CSProof F P) (numVars numCons : Nat) (input : List F)
    (evals : F × F × F) (gens : R1CSGens G) (tr : Tr F P) :
    Out (List F × List F × Tr F P) := do
  let tr := tr.protocol "R1CS proof"
  let tr := tr.scalars "input" input
  let tr := tr.polyComm "poly_commitment" pf.commVars
  let nx ← log2 numCons
  let ny ← log2 (2 * numVars)
  let (tau, tr) := E.challengeVec tr "challenge_tau" nx
  let claim1 := E.compress (← commit1 (0 : F) 0 gens.gens1)
  let (commPost1, rx, tr) ← zkVerify E pf.sc1 claim1 nx 3 gens.gens1 gens.gens4 tr
  let tr ← pf.pokCz.verify E gens.gens1 tr pf.commCz
  let tr ← pf.proofProd.verify E gens.gens1 tr pf.commAz pf.commBz pf.commProd
  let tr := tr.point "comm_Az_claim" pf.commAz
  let tr := tr.point "comm_Bz_claim" pf.commBz
  let tr := tr.point "comm_Cz_claim" pf.commCz
  let tr := tr.point "comm_prod_Az_Bz_claims" pf.commProd
  let tb ← tausBound rx tau
  let prodP ← E.decompressU pf.commProd
  let czP ← E.decompressU pf.commCz
  let expected1 := E.compress (tb • (prodP - czP))
  let tr ← pf.eq1.verify E gens.gens1 tr expected1 commPost1
  let (rA, tr) := E.challenge tr "challenege_Az"
  let (rB, tr) := E.challenge tr "challenege_Bz"
  let (rC, tr) := E.challenge tr "challenege_Cz"
  let pA ← E.decompressU pf.commAz
  let pB ← E.decompressU pf.commBz
  let pC ← E.decompressU pf.commCz
  let claim2 := E.compress (← msm [rA, rB, rC] [pA, pB, pC])
  let (commPost2, ry, tr) ← zkVerify E pf.sc2 claim2 ny 2 gens.gens1 gens.gens3 tr
  check (1 ≤ ry.length)
  let tr ← polyEvalVerify E pf.evalVars gens.pc tr (ry.drop 1) pf.commVarsAtRy pf.commVars
  let ln ← log2 numVars
  let inputEval ← sparseEvaluate ln (inputEntries input) (ry.drop 1)
  let pV ← E.decompressU pf.commVarsAtRy
  let cI ← commit1 inputEval 0 gens.pc.gens1
  let commZ ← msm [1 - ry.getD 0 0, ry.getD 0 0] [pV, cI]
  let expected2 := E.compress ((rA * evals.1 + rB * evals.2.1 + rC * evals.2.2) • commZ)
  let tr ← pf.eq2.verify E gens.gens1 tr expected2 commPost2
  pure (rx, ry, tr)

/-! ### lib.rs: NIZK -/

/-- `NIZKGens::new` (lib.rs:475-486), label `b"gens_r1cs_sat"`. -/
def NIZKGens.new (S : GenSrc G) (label : List UInt8) (numVars numInputs : Nat) : Out (R1CSGens G) :=
  R1CSGens.new S label (varsPadded numVars numInputs)

/-- `NIZK` (lib.rs:489-494). -/
structure NIZK (F P : Type) where
  sat : R1CSProof F P
  rx : List F
  ry : List F

/-- `NIZK::prove` (lib.rs:502-547); serialising the proof for the log has no effect. -/
def NIZK.prove (E : Env F G P) (I : Inst F) (vars input : List F) (gens : R1CSGens G)
    (tr : Tr F P) (tape : Tape F) : Out (NIZK F P × Tr F P) := do
  let tr := tr.protocol "Spartan NIZK proof"
  let tr := tr ++ [.blob "R1CSInstanceDigest" I.digest]
  let pv ← padVars vars I.inst.numVars
  let (pf, rx, ry, tr, _) ← R1CSProof.prove E I.inst pv input gens tr tape
  pure (⟨pf, rx, ry⟩, tr)

/-- `NIZK::verify` (lib.rs:550-587). -/
def NIZK.verify (E : Env F G P) (pf : NIZK F P) (I : Inst F) (input : List F) (gens : R1CSGens G)
    (tr : Tr F P) : Out (Tr F P) := do
  let tr := tr.protocol "Spartan NIZK proof"
  let tr := tr ++ [.blob "R1CSInstanceDigest" I.digest]
  let evals ← I.inst.evaluate pf.rx pf.ry
  check (input.length = I.inst.numInputs)
  let (rx, ry, tr) ← pf.sat.verify E I.inst.numVars I.inst.numCons input evals gens tr
  check (rx = pf.rx)
  check (ry = pf.ry)
  pure tr

end Spartan
