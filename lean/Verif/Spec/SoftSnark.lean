import Verif.Spec.Soft
import Verif.Model.SparseProof

/-!
Vocabulary for C104: the `SNARK` verifier with its assertions on proof contents reported as errors, and the proofs
that have the shape the verifier expects.  `check` stands for assertions on lengths (and out-of-range indices),
`ensure` for the assertions on values that the variant reports as errors.
-/

namespace Spartan.Spec
variable {F G P : Type} [Field F] [AddCommGroup G] [Module F G]
  [DecidableEq F] [DecidableEq P] [DecidableEq G]

/-- One round of `SumcheckInstanceProof::verify` (sumcheck.rs:39-59); the assertion is
`assert_eq!(poly.eval_at_zero() + poly.eval_at_one(), e)`. -/
def softScRound (E : Env F G P) (deg : Nat) (cp : CompressedUniPoly F) (e : F) (tr : Tr F P) :
    Out (F × F × Tr F P) := do
  let poly ← cp.decompress e
  let d ← poly.degree
  check (d = deg)
  let e0 ← poly.evalAtZero
  ensure (e0 + poly.evalAtOne = e)
  let tr := poly.append "poly" tr
  let (r, tr) := E.challenge tr "challenge_nextround"
  let e ← poly.evaluate r
  pure (r, e, tr)

/-- Loop of `SumcheckInstanceProof::verify` (sumcheck.rs:39-59). -/
def softScLoop (E : Env F G P) (deg : Nat) :
    List (CompressedUniPoly F) → F → Tr F P → Out (F × List F × Tr F P)
  | [], e, tr => .ok (e, [], tr)
  | cp :: cps, e, tr => do
    let (r, e, tr) ← softScRound E deg cp e tr
    let (e, rs, tr) ← softScLoop E deg cps e tr
    pure (e, r :: rs, tr)

/-- `SumcheckInstanceProof::verify` (sumcheck.rs:28-62). -/
def softSc (E : Env F G P) (polys : List (CompressedUniPoly F)) (claim : F)
    (numRounds deg : Nat) (tr : Tr F P) : Out (F × List F × Tr F P) := do
  check (polys.length = numRounds)
  softScLoop E deg polys claim tr

/-- Loop of `ProductCircuitEvalProofBatched::verify` (product_tree.rs:399-483); the assertion is
`assert_eq!(claim_expected, claim_last)`. -/
def softProdLoop (E : Env F G P) (m : Nat) (cd : List F) (pf : ProdProofBatched F) :
    List (LayerProofBatched F) → Nat → List F → List F → List F → Tr F P →
      Out (List F × List F × List F × Tr F P)
  | [], _, claims, dclaims, rand, tr => .ok (claims, dclaims, rand, tr)
  | lp :: lps, k, claims, dclaims, rand, tr => do
    let last := lps.isEmpty
    let claims := if last then claims ++ cd else claims
    let (coeffs, tr) := E.challengeVec tr "rand_coeffs_next_layer" claims.length
    let claim := (List.zipWith (fun a b => a * b) claims coeffs).sum
    let (claimLast, rp, tr) ← softSc E lp.proof claim k 3 tr
    check (lp.left.length = m)
    check (lp.right.length = m)
    let tr := appendPairs tr lp.left lp.right
    let eq ← eqEvaluate rand rp
    check (m ≤ coeffs.length)
    let expP := (List.zipWith (fun c lr => c * (lr.1 * lr.2 * eq)) coeffs
      (List.zip lp.left lp.right)).sum
    let (expD, tr) ← if last then do
        check (pf.dotpL.length ≤ pf.dotpR.length ∧ pf.dotpL.length ≤ pf.dotpW.length ∧
          m + pf.dotpL.length ≤ coeffs.length)
        pure ((List.zipWith (fun c (x : F × F × F) => c * x.1 * x.2.1 * x.2.2) (coeffs.drop m)
          (List.zip pf.dotpL (List.zip pf.dotpR pf.dotpW))).sum,
          appendTriples tr pf.dotpL pf.dotpR pf.dotpW)
      else pure (0, tr)
    ensure (expP + expD = claimLast)
    let (rl, tr) := E.challenge tr "challenge_r_layer"
    let dclaims ← if last then do
        check (2 * (cd.length / 2) ≤ pf.dotpL.length ∧ 2 * (cd.length / 2) ≤ pf.dotpR.length ∧
          2 * (cd.length / 2) ≤ pf.dotpW.length)
        pure (dotpNext rl (cd.length / 2) pf.dotpL pf.dotpR pf.dotpW)
      else pure dclaims
    softProdLoop E m cd pf lps (k + 1) (nextClaims rl lp.left lp.right) dclaims (rl :: rp) tr

/-- `ProductCircuitEvalProofBatched::verify` (product_tree.rs:385-486). -/
def softProd (E : Env F G P) (pf : ProdProofBatched F) (cp cd : List F) (len : Nat) (tr : Tr F P) :
    Out (List F × List F × List F × Tr F P) := do
  let n ← log2 len
  check (pf.proof.length = n)
  softProdLoop E cp.length cd pf pf.proof 0 cp [] [] tr

/-- The subset check of one memory (sparse_mlpoly.rs:1239-1247, 1254-1262):
`assert_eq!(eval_init * ws, rs * eval_audit)`. -/
def softMemEvals (n : Nat) (e : MemEvals F) : Out Unit := do
  check (e.write.length = n)
  check (e.read.length = n)
  ensure (e.init * e.write.prod = e.read.prod * e.audit)

/-- The loop over the dot-product claims (sparse_mlpoly.rs:1274-1281): `assert_eq!(left + right, eval)`. -/
def softDotpLoop : List F → List F → List F → Tr F P → Out (List F × Tr F P)
  | [], _, _, tr => .ok ([], tr)
  | e :: es, l :: ls, r :: rs, tr => do
    ensure (l + r = e)
    let tr := (tr.scalar "claim_eval_dotp_left" l).scalar "claim_eval_dotp_right" r
    let (cs, tr) ← softDotpLoop es ls rs tr
    pure (l :: r :: cs, tr)
  | _ :: _, _, _, _ => .error .panic

/-- `ProductLayerProof::verify` (sparse_mlpoly.rs:1218-1311). -/
def softProdLayer (E : Env F G P) (pf : ProdLayerProof F) (numOps numCells : Nat) (eval : List F)
    (tr : Tr F P) : Out (List F × List F × List F × List F × List F × Tr F P) := do
  let tr := tr.protocol "Sparse polynomial product layer proof"
  softMemEvals eval.length pf.row
  let tr := tr.memEvals "row" pf.row
  softMemEvals eval.length pf.col
  let tr := tr.memEvals "col" pf.col
  check (pf.dotpL.length = eval.length)
  let (cd, tr) ← softDotpLoop eval pf.dotpL pf.dotpR tr
  let (claimsOps, claimsDotp, randOps, tr) ← softProd E pf.ops
    (pf.row.read ++ pf.row.write ++ pf.col.read ++ pf.col.write) cd numOps tr
  let (claimsMem, _, randMem, tr) ← softProd E pf.mem
    [pf.row.init, pf.row.audit, pf.col.init, pf.col.audit] [] numCells tr
  pure (claimsMem, randMem, claimsOps, claimsDotp, randOps, tr)

/-- `PolyEvalProof::verify_plain` (dense_mlpoly.rs:403-416) without the assertion of `DotProductProofLog::verify`. -/
def softPolyEvalPlain (E : Env F G P) (pf : DotProductProofLog F P) (gens : DotGens G)
    (tr : Tr F P) (r : List F) (Zr : F) (comm : List P) : Out (Tr F P) := do
  let Czr := E.compress (← commit1 Zr 0 gens.gens1)
  softPolyEval E pf gens tr r Czr comm

/-- `DerefsEvalProof::verify` (sparse_mlpoly.rs:153-205). -/
def softDerefs (E : Env F G P) (pf : DotProductProofLog F P) (r er ec : List F) (gens : DotGens G)
    (comm : List P) (tr : Tr F P) : Out (Tr F P) := do
  let tr := tr.protocol "Derefs evaluation proof"
  let evals := padPow2 (er ++ ec)
  let tr := tr.scalars "evals_ops_val" evals
  let (cs, v, tr) ← combineEvals E "challenge_combine_n_to_one" evals tr
  let tr := tr.scalar "joint_claim_eval" v
  softPolyEvalPlain E pf gens tr (cs ++ r) v comm

/-- The assertions on reads and writes (sparse_mlpoly.rs:866-879). -/
def softHashOps (rh g : F) (ops addr ts cr cw : List F) : Out Unit := do
  let _ ← (List.range addr.length).mapM fun i => do
    let a ← idx addr i
    let v ← idx ops i
    let t ← idx ts i
    let c ← idx cr i
    ensure (memHash rh a v t - g = c)
  let _ ← (List.range addr.length).mapM fun i => do
    let a ← idx addr i
    let v ← idx ops i
    let t ← idx ts i
    let c ← idx cw i
    ensure (memHash rh a v (t + 1) - g = c)
  pure ()

/-- `HashLayerProof::verify_helper` (sparse_mlpoly.rs:840-889). -/
def softHashHelper (randMem : List F) (claims : MemClaims F) (ops : List F) (e : AddrEvals F)
    (r : List F) (rh g : F) : Out Unit := do
  let a ← identityEvaluate randMem.length randMem
  let v ← eqEvaluate r randMem
  ensure (memHash rh a v 0 - g = claims.init)
  softHashOps rh g ops e.addr e.readTs claims.read claims.write
  ensure (memHash rh a v e.auditTs - g = claims.audit)

/-- The assertions comparing the dot-product claims with the opened values (sparse_mlpoly.rs:924-934). -/
def softDotpClaims (claims row col val : List F) : Out Unit := do
  check (claims.length = 3 * row.length)
  let _ ← (List.range (claims.length / 3)).mapM fun i => do
    let a ← idx claims (3 * i)
    let b ← idx claims (3 * i + 1)
    let c ← idx claims (3 * i + 2)
    let r ← idx row i
    ensure (a = r)
    let q ← idx col i
    ensure (b = q)
    let w ← idx val i
    ensure (c = w)
  pure ()

/-- `HashLayerProof::verify` (sparse_mlpoly.rs:891-1021). -/
def softHashLayer (E : Env F G P) (pf : HashLayerProof F P) (randMem randOps : List F)
    (clRow clCol : MemClaims F) (clDotp : List F) (comm : SparseComm P) (gens : SparseGens G)
    (cDerefs : List P) (rx ry : List F) (rh g : F) (tr : Tr F P) : Out (Tr F P) := do
  let tr := tr.protocol "Sparse polynomial hash layer proof"
  check (pf.derefRow.length = pf.derefCol.length)
  let tr ← softDerefs E pf.derefs randOps pf.derefRow pf.derefCol gens.derefs cDerefs tr
  softDotpClaims clDotp pf.derefRow pf.derefCol pf.val
  let evOps := evalsOps pf.row pf.col pf.val
  let tr := tr.scalars "claim_evals_ops" evOps
  let (cs, v, tr) ← combineEvals E "challenge_combine_n_to_one" evOps tr
  let tr := tr.scalar "joint_claim_eval_ops" v
  let tr ← softPolyEvalPlain E pf.ops gens.ops tr (cs ++ randOps) v comm.ops
  let evMem := [pf.row.auditTs, pf.col.auditTs]
  let tr := tr.scalars "claim_evals_mem" evMem
  let (cs, v, tr) ← combineEvals E "challenge_combine_two_to_one" evMem tr
  let tr := tr.scalar "joint_claim_eval_mem" v
  let tr ← softPolyEvalPlain E pf.mem gens.mem tr (cs ++ randMem) v comm.mem
  softHashHelper randMem clRow pf.derefRow pf.row rx rh g
  softHashHelper randMem clCol pf.derefCol pf.col ry rh g
  pure tr

/-- `PolyEvalNetworkProof::verify` (sparse_mlpoly.rs:1361-1422). -/
def softNet (E : Env F G P) (pf : NetProof F P) (comm : SparseComm P) (cDerefs : List P)
    (evals : List F) (gens : SparseGens G) (rx ry : List F) (rh g : F) (nz : Nat) (tr : Tr F P) :
    Out (Tr F P) := do
  let tr := tr.protocol "Sparse polynomial evaluation proof"
  let n := evals.length
  check (rx.length = ry.length)
  let (cMem, randMem, cOps, cDotp, randOps, tr) ←
    softProdLayer E pf.prod (nextPow2 nz) (2 ^ rx.length) evals tr
  check (cMem.length = 4)
  check (cOps.length = 4 * n)
  check (cDotp.length = 3 * n)
  let cr := cOps.take (2 * n)
  let cc := cOps.drop (2 * n)
  softHashLayer E pf.hash randMem randOps
    ⟨cMem.getD 0 0, cr.take n, cr.drop n, cMem.getD 1 0⟩
    ⟨cMem.getD 2 0, cc.take n, cc.drop n, cMem.getD 3 0⟩ cDotp comm gens cDerefs rx ry rh g tr

/-- `SparseMatPolyEvalProof::verify` (sparse_mlpoly.rs:1523-1559). -/
def softSparse (E : Env F G P) (pf : SparseEvalProof F P) (comm : SparseComm P) (rx ry evals : List F)
    (gens : SparseGens G) (tr : Tr F P) : Out (Tr F P) := do
  let tr := tr.protocol "Sparse polynomial evaluation proof"
  let (rxe, rye) := equalize rx ry
  check (2 ^ rxe.length = comm.numCells)
  let tr := tr.derefsComm "comm_poly_row_col_ops_val" pf.derefs
  let (rs, tr) := E.challengeVec tr "challenge_r_hash" 2
  softNet E pf.net comm pf.derefs evals gens rxe rye (rs.getD 0 0) (rs.getD 1 0) comm.numOps tr

/-- `SNARK::verify` (lib.rs:424-465) with errors in place of all assertions on the values in a proof. -/
def softSNARK (E : Env F G P) (pf : SNARK F P) (comm : R1CSComm P) (input : List F) (gens : SNARKGens G)
    (tr : Tr F P) : Out (Tr F P) := do
  let tr := (tr.protocol "Spartan SNARK proof").r1csComm comm
  check (input.length = comm.numInputs)
  let (rx, ry, tr) ← softR1CS E pf.sat comm.numVars comm.numCons input pf.evals gens.sat tr
  let tr := tr.evalClaims pf.evals
  softSparse E pf.eval comm.comm rx ry [pf.evals.1, pf.evals.2.1, pf.evals.2.2] gens.eval tr

/-! ### shapes -/

/-- The satisfiability part of a proof for `2^k` constraints and `2^j` variables (see `NizkShape`). -/
structure SatShape (E : Env F G P) (pf : R1CSProof F P) (k j : Nat) : Prop where
  sc1 : ScShape pf.sc1 k 4
  sc2 : ScShape pf.sc2 (j + 1) 3
  comm : 2 ^ (j / 2) ≤ pf.commVars.length
  bullet : pf.evalVars.bullet.L.length ≤ pf.evalVars.bullet.R.length
  points : ∀ p ∈ nizkPts ⟨pf, [], []⟩, (E.decompress p).isSome

/-- An opening proof: as many right as left folding commitments at least, and all points decode. -/
structure OpenShape (E : Env F G P) (pf : DotProductProofLog F P) : Prop where
  bullet : pf.bullet.L.length ≤ pf.bullet.R.length
  points : ∀ p ∈ pf.bullet.L ++ pf.bullet.R ++ [pf.delta, pf.beta], (E.decompress p).isSome

/-- A batched product proof of `n` layers for `m` products and `d` halves of dot products: layer `i` has `i`
rounds with cubic polynomials (three coefficients are sent). -/
structure ProdShape (pf : ProdProofBatched F) (n m d : Nat) : Prop where
  layers : pf.proof.length = n
  layer : ∀ (i : Nat) (lp : LayerProofBatched F), pf.proof[i]? = some lp →
    lp.proof.length = i ∧ (∀ q ∈ lp.proof, q.coeffs.length = 3) ∧
    lp.left.length = m ∧ lp.right.length = m
  dotpL : pf.dotpL.length = d
  dotpR : d ≤ pf.dotpR.length
  dotpW : d ≤ pf.dotpW.length

/-- The opened values of one memory: at most three addresses, each with a timestamp.  (The code never checks that
there are three; that is the defect behind C70.) -/
structure AddrShape (e : AddrEvals F) : Prop where
  addr : e.addr.length ≤ 3
  ts : e.addr.length ≤ e.readTs.length

/-- The number of values opened in the hash layer. -/
def opened (h : HashLayerProof F P) : Nat :=
  h.row.addr.length + h.row.readTs.length + h.col.addr.length + h.col.readTs.length + h.val.length

/-- A proof of the shape expected for `2^k` constraints, `2^j` variables and `2^n` padded entries per matrix. -/
structure SnarkShape (E : Env F G P) (pf : SNARK F P) (k j n : Nat) : Prop where
  nz : 1 ≤ n
  sat : SatShape E pf.sat k j
  memRow : pf.eval.net.prod.row.read.length = 3 ∧ pf.eval.net.prod.row.write.length = 3
  memCol : pf.eval.net.prod.col.read.length = 3 ∧ pf.eval.net.prod.col.write.length = 3
  dotp : pf.eval.net.prod.dotpL.length = 3 ∧ 3 ≤ pf.eval.net.prod.dotpR.length
  ops : ProdShape pf.eval.net.prod.ops n 12 6
  mem : ProdShape pf.eval.net.prod.mem (max k (j + 1)) 4 0
  derefs : 2 ^ ((3 + n) / 2) ≤ pf.eval.derefs.length
  derefPts : ∀ p ∈ pf.eval.derefs, (E.decompress p).isSome
  derefVals : pf.eval.net.hash.derefRow.length = 3 ∧ pf.eval.net.hash.derefCol.length = 3
  row : AddrShape pf.eval.net.hash.row
  col : AddrShape pf.eval.net.hash.col
  val : 3 ≤ pf.eval.net.hash.val.length
  total : (8 < opened pf.eval.net.hash ∧ opened pf.eval.net.hash ≤ 16) ∨
    (n % 2 = 0 ∧ 4 < opened pf.eval.net.hash ∧ opened pf.eval.net.hash ≤ 8)
  openOps : OpenShape E pf.eval.net.hash.ops
  openMem : OpenShape E pf.eval.net.hash.mem
  openDerefs : OpenShape E pf.eval.net.hash.derefs

end Spartan.Spec
