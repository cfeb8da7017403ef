import Verif.Model.Poly
import Verif.Model.Sigma

/-! `Spartan-secq/src/sumcheck.rs`.

The four provers of the file have the same loop; they differ in the tables they
hold, in how they compute the values at 0, 2 (and 3) of the next round
polynomial, and in how they bind the tables.  The loops are therefore written
once, over a prover state `S` with functions `points` and `bind`, and then
instantiated. -/

namespace Spartan
variable {F G P : Type} [Field F] [AddCommGroup G] [Module F G]
  [DecidableEq F] [DecidableEq P] [DecidableEq G]

/-! ### Round computations -/

/-- The values `t[i]` of all tables (sumcheck.rs:207 and the same lines in the other provers). -/
def rowAt (ts : List (Dense F)) (i : Nat) : List F := ts.map fun t => t.Z.getD i 0

/-- Values at `2` of the lines through `t[i]` and `t[len+i]`: `t[len+i] + t[len+i] - t[i]`
(sumcheck.rs:210-212 and the same lines in the other provers). -/
def rowAt2 (ts : List (Dense F)) (len i : Nat) : List F :=
  ts.map fun t => t.Z.getD (len + i) 0 + t.Z.getD (len + i) 0 - t.Z.getD i 0

/-- Values at `3`, computed incrementally (sumcheck.rs:220-222). -/
def rowAt3 (ts : List (Dense F)) (len i : Nat) : List F :=
  ts.map fun t => t.Z.getD (len + i) 0 + t.Z.getD (len + i) 0 - t.Z.getD i 0
    + t.Z.getD (len + i) 0 - t.Z.getD i 0

/-- Sums over `i in 0..len` of the combination at 0, 2 and 3 (sumcheck.rs:200-229,
292-321, 331-356, 458-470, 621-653).  `len` is half the length of the first table; an index
beyond some table panics.  The quadratic prover drops the last component. -/
def scPoints (comb : List F → F) (ts : List (Dense F)) : Out (F × F × F) :=
  match ts with
  | [] => .error .panic
  | t0 :: _ => do
    let len := t0.len / 2
    check (∀ t ∈ ts, 2 * len ≤ t.Z.length)
    pure (((List.range len).map fun i => comb (rowAt ts i)).sum,
      ((List.range len).map fun i => comb (rowAt2 ts len i)).sum,
      ((List.range len).map fun i => comb (rowAt3 ts len i)).sum)

/-- `bound_poly_var_top` on every table (sumcheck.rs:241-243, 381-384, 391-393, 486-487, 674-677). -/
def scBind (r : F) (ts : List (Dense F)) : Out (List (Dense F)) := ts.mapM fun t => t.boundTop r

/-- `poly_X[0]` for every table (sumcheck.rs:251, 400-416, 584, 774). -/
def scFinals (ts : List (Dense F)) : Out (List F) := ts.mapM fun t => idx t.Z 0

/-! ### Plain sum-check -/

/-- One verification round after decompression (sumcheck.rs:41-58). -/
def scVerifyRound (E : Env F G P) (deg : Nat) (cp : CompressedUniPoly F) (e : F) (tr : Tr F P) :
    Out (F × F × Tr F P) := do
  let poly ← cp.decompress e
  let d ← poly.degree
  check (d = deg)
  let e0 ← poly.evalAtZero
  check (e0 + poly.evalAtOne = e)
  let tr := poly.append "poly" tr
  let (r, tr) := E.challenge tr "challenge_nextround"
  let e ← poly.evaluate r
  pure (r, e, tr)

/-- Loop of `SumcheckInstanceProof::verify` (sumcheck.rs:40-59). -/
def scVerifyLoop (E : Env F G P) (deg : Nat) :
    List (CompressedUniPoly F) → F → Tr F P → Out (F × List F × Tr F P)
  | [], e, tr => .ok (e, [], tr)
  | cp :: cps, e, tr => do
    let (r, e, tr) ← scVerifyRound E deg cp e tr
    let (e, rs, tr) ← scVerifyLoop E deg cps e tr
    pure (e, r :: rs, tr)

/-- `SumcheckInstanceProof::verify` (sumcheck.rs:28-62). -/
def scVerify (E : Env F G P) (polys : List (CompressedUniPoly F)) (claim : F)
    (numRounds deg : Nat) (tr : Tr F P) : Out (F × List F × Tr F P) := do
  check (polys.length = numRounds)
  scVerifyLoop E deg polys claim tr

/-- Loop of `prove_cubic` and `prove_cubic_batched` (sumcheck.rs:199-246, 288-398): messages, point,
final state, transcript. -/
def scProveLoop {S : Type} (E : Env F G P) (points : S → Out (F × F × F)) (bind : F → S → Out S) :
    Nat → F → S → Tr F P → Out (List (CompressedUniPoly F) × List F × S × Tr F P)
  | 0, _, s, tr => .ok ([], [], s, tr)
  | n + 1, e, s, tr => do
    let (e0, e2, e3) ← points s
    let poly ← UniPoly.fromEvals [e0, e - e0, e2, e3]
    let tr := poly.append "poly" tr
    let (r, tr) := E.challenge tr "challenge_nextround"
    let s ← bind r s
    let e ← poly.evaluate r
    let cp ← poly.compress
    let (cps, rs, s, tr) ← scProveLoop E points bind n e s tr
    pure (cp :: cps, r :: rs, s, tr)

/-- `SumcheckInstanceProof::prove_cubic` (sumcheck.rs:184-253): proof, point, final
table values, transcript. -/
def proveCubic (E : Env F G P) (claim : F) (numRounds : Nat) (A B C : Dense F)
    (comb : F → F → F → F) (tr : Tr F P) :
    Out (List (CompressedUniPoly F) × List F × List F × Tr F P) := do
  let cb : List F → F := fun l => comb (l.getD 0 0) (l.getD 1 0) (l.getD 2 0)
  let (cps, rs, ts, tr) ← scProveLoop E (scPoints cb) scBind numRounds claim [A, B, C] tr
  let fin ← scFinals ts
  pure (cps, rs, fin, tr)

/-- State of `prove_cubic_batched` (sumcheck.rs:258-267): the two lists of tables sharing
`C`, the table `C`, and the three lists of tables of the unshared instances. -/
structure Batch (F : Type) where
  parA : List (Dense F)
  parB : List (Dense F)
  parC : Dense F
  seqA : List (Dense F)
  seqB : List (Dense F)
  seqC : List (Dense F)

/-- The table triples of the instances in the order the code visits them
(sumcheck.rs:291, 326-330): zips truncate. -/
def Batch.triples (b : Batch F) : List (List (Dense F)) :=
  (List.zip b.parA b.parB).map (fun (x, y) => [x, y, b.parC]) ++
  (List.zip b.seqA (List.zip b.seqB b.seqC)).map (fun (x, y, z) => [x, y, z])

/-- `Σ evals[i].k * coeffs[i]` (sumcheck.rs:360-362); indexing panics when there are
fewer coefficients than instances. -/
def Batch.points (comb : List F → F) (coeffs : List F) (b : Batch F) : Out (F × F × F) := do
  let evals ← b.triples.mapM (scPoints comb)
  check (evals.length ≤ coeffs.length)
  pure ((List.zipWith (fun e c => e.1 * c) evals coeffs).sum,
    (List.zipWith (fun e c => e.2.1 * c) evals coeffs).sum,
    (List.zipWith (fun e c => e.2.2 * c) evals coeffs).sum)

/-- Binding all tables (sumcheck.rs:379-394).  The code binds only the zipped prefixes;
the model requires equal lengths, which both call sites guarantee. -/
def Batch.bind (r : F) (b : Batch F) : Out (Batch F) := do
  check (b.parA.length = b.parB.length ∧ b.seqA.length = b.seqB.length ∧
    b.seqB.length = b.seqC.length)
  let parA ← scBind r b.parA
  let parB ← scBind r b.parB
  let parC ← b.parC.boundTop r
  let seqA ← scBind r b.seqA
  let seqB ← scBind r b.seqB
  let seqC ← scBind r b.seqC
  pure ⟨parA, parB, parC, seqA, seqB, seqC⟩

/-- Final claims of `prove_cubic_batched` (sumcheck.rs:400-417). -/
structure BatchFinal (F : Type) where
  parA : List F
  parB : List F
  parC : F
  seqA : List F
  seqB : List F
  seqC : List F

/-- `SumcheckInstanceProof::prove_cubic_batched` (sumcheck.rs:255-425). -/
def proveCubicBatched (E : Env F G P) (claim : F) (numRounds : Nat) (b : Batch F)
    (coeffs : List F) (comb : F → F → F → F) (tr : Tr F P) :
    Out (List (CompressedUniPoly F) × List F × BatchFinal F × Tr F P) := do
  let cb : List F → F := fun l => comb (l.getD 0 0) (l.getD 1 0) (l.getD 2 0)
  let (cps, rs, b, tr) ← scProveLoop E (Batch.points cb coeffs) Batch.bind numRounds claim b tr
  let fA ← scFinals b.parA
  let fB ← scFinals b.parB
  let fC ← idx b.parC.Z 0
  let gA ← scFinals b.seqA
  let gB ← scFinals b.seqB
  let gC ← scFinals b.seqC
  pure (cps, rs, ⟨fA, fB, fC, gA, gB, gC⟩, tr)

/-! ### Zero-knowledge sum-check -/

/-- `ZKSumcheckInstanceProof` (sumcheck.rs:65-70). -/
structure ZKSumcheck (F P : Type) where
  commPolys : List P
  commEvals : List P
  proofs : List (DotProductProof F P)

/-- The vector `a_eval` (sumcheck.rs:146-152): `n` entries, each the previous one times `r`. -/
def evalPowers (r : F) : Nat → F → List F
  | 0, _ => []
  | n + 1, x => x :: evalPowers r n (x * r)

/-- The vector `a` (sumcheck.rs:137-159): weighted sum of `(2,1,..,1)` and `(1,r,r²,..)`. -/
def zkWeights (w0 w1 r : F) (n : Nat) : List F :=
  let aSc : List F := (List.replicate n 1).modify 0 (· + 1)
  List.zipWith (fun x y => w0 * x + w1 * y) aSc (evalPowers r n 1)

/-- Loop of `ZKSumcheckInstanceProof::verify` (sumcheck.rs:102-177): remaining polynomial
commitments, evaluation commitments and proofs, commitment to the current claim. -/
def zkVerifyLoop (E : Env F G P) (deg : Nat) (gens1 gensn : Gens G) :
    List P → List P → List (DotProductProof F P) → P → Tr F P → Out (List F × Tr F P)
  | [], _, _, _, tr => .ok ([], tr)
  | cp :: cps, ces, pfs, claim, tr => do
    let tr := tr.point "comm_poly" cp
    let (r, tr) := E.challenge tr "challenge_nextround"
    let ce ← idx ces 0
    let tr := tr.point "comm_claim_per_round" claim
    let tr := tr.point "comm_eval" ce
    let (w, tr) := E.challengeVec tr "combine_two_claims_to_one" 2
    let pts ← [claim, ce].mapM E.decompressU
    let target := E.compress (← msm w pts)
    let a := zkWeights (w.getD 0 0) (w.getD 1 0) r (deg + 1)
    let pf ← idx pfs 0
    let tr ← pf.verify E gens1 gensn tr a cp target
    let (rs, tr) ← zkVerifyLoop E deg gens1 gensn cps ces.tail pfs.tail ce tr
    pure (r :: rs, tr)

/-- `ZKSumcheckInstanceProof::verify` (sumcheck.rs:85-180): final commitment, point,
transcript.  With zero rounds the last line underflows. -/
def zkVerify (E : Env F G P) (pf : ZKSumcheck F P) (claim : P) (numRounds deg : Nat)
    (gens1 gensn : Gens G) (tr : Tr F P) : Out (P × List F × Tr F P) := do
  check (gensn.n = deg + 1)
  check (pf.commPolys.length = numRounds)
  check (pf.commEvals.length = numRounds)
  let (rs, tr) ← zkVerifyLoop E deg gens1 gensn pf.commPolys pf.commEvals pf.proofs claim tr
  check (1 ≤ pf.commEvals.length)
  let last ← idx pf.commEvals (pf.commEvals.length - 1)
  pure (last, rs, tr)

/-- Loop of the zero-knowledge provers (sumcheck.rs:456-579, 619-769).  `blinds` are the
remaining pairs `(blinds_poly[j], blinds_evals[j])`, `bclaim` the blind of the current claim. -/
def zkProveLoop {S : Type} (E : Env F G P) (points : S → Out (List F)) (bind : F → S → Out S)
    (gens1 gensn : Gens G) : List (F × F) → F → F → P → S → Tr F P → Tape F →
    Out (ZKSumcheck F P × List F × S × Tr F P × Tape F)
  | [], _, _, _, s, tr, tape => .ok (⟨[], [], []⟩, [], s, tr, tape)
  | (bp, be) :: blinds, bclaim, claim, commClaim, s, tr, tape => do
    let es ← points s
    let e0 ← idx es 0
    let poly ← UniPoly.fromEvals (e0 :: (claim - e0) :: es.tail)
    let commPoly := E.compress (← commitV poly.coeffs bp gensn)
    let tr := tr.point "comm_poly" commPoly
    let (r, tr) := E.challenge tr "challenge_nextround"
    let s ← bind r s
    let eval ← poly.evaluate r
    let commEval := E.compress (← commit1 eval be gens1)
    let tr := tr.point "comm_claim_per_round" commClaim
    let tr := tr.point "comm_eval" commEval
    let (w, tr) := E.challengeVec tr "combine_two_claims_to_one" 2
    let w0 := w.getD 0 0
    let w1 := w.getD 1 0
    let target := w0 * claim + w1 * eval
    let pts ← [commClaim, commEval].mapM E.decompressU
    let commTarget := E.compress (← msm w pts)
    let blind := w0 * bclaim + w1 * be
    let ct ← commit1 target blind gens1
    check (E.compress ct = commTarget)
    let d ← poly.degree
    let a := zkWeights w0 w1 r (d + 1)
    let (pf, _, _, tr, tape) ← DotProductProof.prove E gens1 gensn tr tape poly.coeffs bp a target blind
    let (zk, rs, s, tr, tape) ← zkProveLoop E points bind gens1 gensn blinds be eval commEval s tr tape
    pure (⟨commPoly :: zk.commPolys, commEval :: zk.commEvals, pf :: zk.proofs⟩, r :: rs, s, tr, tape)

/-- The part shared by `prove_quad` and `prove_cubic_with_additive_term`: drawing the
blinds, the initial commitment, the loop, the final values (sumcheck.rs:444-454, 581-586). -/
def zkProve (E : Env F G P) (points : List (Dense F) → Out (List F)) (claim blindClaim : F)
    (numRounds : Nat) (ts : List (Dense F)) (gens1 gensn : Gens G) (tr : Tr F P) (tape : Tape F) :
    Out (ZKSumcheck F P × List F × List F × F × Tr F P × Tape F) := do
  let (bps, tape) := tape.nextVec numRounds
  let (bes, tape) := tape.nextVec numRounds
  let commClaim := E.compress (← commit1 claim blindClaim gens1)
  let (zk, rs, ts, tr, tape) ←
    zkProveLoop E points scBind gens1 gensn (List.zip bps bes) blindClaim claim commClaim ts tr tape
  let fin ← scFinals ts
  check (1 ≤ numRounds)
  let b ← idx bes (numRounds - 1)
  pure (zk, rs, fin, b, tr, tape)

/-- `ZKSumcheckInstanceProof::prove_quad` (sumcheck.rs:429-587). -/
def proveQuad (E : Env F G P) (claim blindClaim : F) (numRounds : Nat) (A B : Dense F)
    (comb : F → F → F) (gens1 gensn : Gens G) (tr : Tr F P) (tape : Tape F) :=
  zkProve E (fun ts => do
      let (e0, e2, _) ← scPoints (fun l => comb (l.getD 0 0) (l.getD 1 0)) ts
      pure [e0, e2])
    claim blindClaim numRounds [A, B] gens1 gensn tr tape

/-- `ZKSumcheckInstanceProof::prove_cubic_with_additive_term` (sumcheck.rs:589-777). -/
def proveCubicAdditive (E : Env F G P) (claim blindClaim : F) (numRounds : Nat) (A B C D : Dense F)
    (comb : F → F → F → F → F) (gens1 gensn : Gens G) (tr : Tr F P) (tape : Tape F) :=
  zkProve E (fun ts => do
      let (e0, e2, e3) ← scPoints
        (fun l => comb (l.getD 0 0) (l.getD 1 0) (l.getD 2 0) (l.getD 3 0)) ts
      pure [e0, e2, e3])
    claim blindClaim numRounds [A, B, C, D] gens1 gensn tr tape

end Spartan
