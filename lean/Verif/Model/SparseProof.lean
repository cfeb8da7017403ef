import Verif.Model.ProductTree
import Verif.Model.R1CS

/-! Commitments to sparse matrices, the memory-checking argument that proves their evaluations
(`Spartan-secq/src/sparse_mlpoly.rs`) and the preprocessing SNARK (`r1csinstance.rs`, `lib.rs`).

`debug_assert`s are left out: they are compiled away in release builds. -/

namespace Spartan
variable {F G P : Type} [Field F] [AddCommGroup G] [Module F G]
  [DecidableEq F] [DecidableEq P] [DecidableEq G]

/-! ### Derefs -/

/-- `Derefs` (sparse_mlpoly.rs:39-43). -/
structure Derefs (F : Type) where
  row : List (Dense F)
  col : List (Dense F)
  comb : Dense F

/-- `Derefs::new` (sparse_mlpoly.rs:51-66). -/
def Derefs.new (row col : List (Dense F)) : Out (Derefs F) := do
  check (row.length = col.length)
  let comb ← Dense.merge (row ++ col)
  pure ⟨row, col, comb⟩

/-- `Derefs::commit` (sparse_mlpoly.rs:68-71). -/
def Derefs.commit (E : Env F G P) (d : Derefs F) (gens : DotGens G) : Out (List P) := do
  let (C, _, _) ← d.comb.commit E gens none
  pure C

/-- `AppendToTranscript for DerefsCommitment` (sparse_mlpoly.rs:208-214). -/
def Tr.derefsComm (tr : Tr F P) (l : String) (C : List P) : Tr F P :=
  Tr.polyComm (tr ++ [.bytes "derefs_commitment" "begin_derefs_commitment"]) l C
    ++ [.bytes "derefs_commitment" "end_derefs_commitment"]

/-- `evals.resize(evals.len().next_power_of_two(), Scalar::zero())`
(sparse_mlpoly.rs:144, 195, 776, 946). -/
def padPow2 (v : List F) : List F := v ++ List.replicate (nextPow2 v.length - v.length) 0

/-- The loop `for i in (0..n).rev() { poly.bound_poly_var_bot(&challenges[i]) }`
(sparse_mlpoly.rs:102-104, 168-170, 782-784, 809-811, 952-954, 976-978); the argument holds the
challenges last first. -/
def bindBot : List F → Dense F → Out (Dense F)
  | [], d => .ok d
  | c :: cs, d => do
    let d ← d.boundBot c
    bindBot cs d

/-- The n-to-1 reduction of claimed evaluations (sparse_mlpoly.rs:97-106, 165-172, 778-786,
805-813, 948-956, 972-980): challenges and combined value. -/
def combineEvals (E : Env F G P) (l : String) (evals : List F) (tr : Tr F P) :
    Out (List F × F × Tr F P) := do
  let n ← log2 evals.length
  let (cs, tr) := E.challengeVec tr l n
  let d ← Dense.new evals
  let d ← bindBot cs.reverse d
  check (d.len = 1)
  let v ← idx d.Z 0
  pure (cs, v, tr)

/-- `DerefsEvalProof::prove` and `prove_single` (sparse_mlpoly.rs:84-151). -/
def derefsProve (E : Env F G P) (d : Derefs F) (er ec r : List F) (gens : DotGens G) (tr : Tr F P)
    (tape : Tape F) : Out (DotProductProofLog F P × Tr F P × Tape F) := do
  let tr := tr.protocol "Derefs evaluation proof"
  let evals := padPow2 (er ++ ec)
  let n ← log2 evals.length
  check (d.comb.numVars = r.length + n)
  let tr := tr.scalars "evals_ops_val" evals
  let (cs, v, tr) ← combineEvals E "challenge_combine_n_to_one" evals tr
  let tr := tr.scalar "joint_claim_eval" v
  let (pf, _, tr, tape) ← polyEvalProve E d.comb none (cs ++ r) v none gens tr tape
  pure (pf, tr, tape)

/-- `DerefsEvalProof::verify` and `verify_single` (sparse_mlpoly.rs:153-205). -/
def derefsVerify (E : Env F G P) (pf : DotProductProofLog F P) (r er ec : List F) (gens : DotGens G)
    (comm : List P) (tr : Tr F P) : Out (Tr F P) := do
  let tr := tr.protocol "Derefs evaluation proof"
  let evals := padPow2 (er ++ ec)
  let tr := tr.scalars "evals_ops_val" evals
  let (cs, v, tr) ← combineEvals E "challenge_combine_n_to_one" evals tr
  let tr := tr.scalar "joint_claim_eval" v
  polyEvalVerifyPlain E pf gens tr (cs ++ r) v comm

/-! ### Address timestamps -/

/-- `AddrTimestamps` (sparse_mlpoly.rs:216-221). -/
structure AddrTs (F : Type) where
  addrU : List (List Nat)
  addr : List (Dense F)
  readTs : List (Dense F)
  auditTs : Dense F

/-- Inner loop of `AddrTimestamps::new` (sparse_mlpoly.rs:237-245): read timestamps of the
operations, and the counters of the cells afterwards. -/
def tsLoop (cells : Nat) : List Nat → List Nat → Out (List Nat × List Nat)
  | [], audit => .ok ([], audit)
  | a :: as, audit => do
    check (a < cells)
    let t ← idx audit a
    let (rs, audit) ← tsLoop cells as (audit.set a (t + 1))
    pure (t :: rs, audit)

/-- Outer loop of `AddrTimestamps::new` (sparse_mlpoly.rs:232-249); the counters run on from one
instance to the next. -/
def tsLoops (cells : Nat) : List (List Nat) → List Nat → Out (List (List Nat) × List Nat)
  | [], audit => .ok ([], audit)
  | ops :: rest, audit => do
    let (rs, audit) ← tsLoop cells ops audit
    let (rss, audit) ← tsLoops cells rest audit
    pure (rs :: rss, audit)

/-- `AddrTimestamps::new` (sparse_mlpoly.rs:224-257). -/
def AddrTs.new (cells numOps : Nat) (ops : List (List Nat)) : Out (AddrTs F) := do
  check (∀ o ∈ ops, o.length = numOps)
  let (rs, audit) ← tsLoops cells ops (List.replicate cells 0)
  let addr ← ops.mapM Dense.fromUsize
  let readTs ← rs.mapM Dense.fromUsize
  let auditTs ← Dense.fromUsize audit
  pure ⟨ops, addr, readTs, auditTs⟩

/-- `AddrTimestamps::deref` and `deref_mem` (sparse_mlpoly.rs:259-274). -/
def AddrTs.deref (t : AddrTs F) (mem : List F) : Out (List (Dense F)) :=
  t.addrU.mapM fun ops => do
    let v ← ops.mapM fun a => idx mem a
    Dense.new v

/-! ### Dense representation and commitment -/

/-- `MultiSparseMatPolynomialAsDense` (sparse_mlpoly.rs:277-284). -/
structure MultiDense (F : Type) where
  batch : Nat
  val : List (Dense F)
  row : AddrTs F
  col : AddrTs F
  combOps : Dense F
  combMem : Dense F

/-- `SparseMatPolyCommitmentGens` (sparse_mlpoly.rs:286-290). -/
structure SparseGens (G : Type) where
  ops : DotGens G
  mem : DotGens G
  derefs : DotGens G

/-- `SparseMatPolyCommitmentGens::new` (sparse_mlpoly.rs:293-318). -/
def SparseGens.new (S : GenSrc G) (label : List UInt8) (nx ny nz batch : Nat) : Out (SparseGens G) := do
  let lz ← log2 (nextPow2 nz)
  let l5 ← log2 (nextPow2 (batch * 5))
  let l2 ← log2 (nextPow2 (batch * 2))
  let nmem := (if nx > ny then nx else ny) + 1
  let ops ← polyCommitGens S (lz + l5) label
  let mem ← polyCommitGens S nmem label
  let derefs ← polyCommitGens S (lz + l2) label
  pure ⟨ops, mem, derefs⟩

/-- `SparseMatPolyCommitment` (sparse_mlpoly.rs:322-328). -/
structure SparseComm (P : Type) where
  batch : Nat
  numOps : Nat
  numCells : Nat
  ops : List P
  mem : List P

/-- `AppendToTranscript for SparseMatPolyCommitment` (sparse_mlpoly.rs:330-342). -/
def Tr.sparseComm (tr : Tr F P) (c : SparseComm P) : Tr F P :=
  Tr.polyComm (Tr.polyComm (tr ++ [.u64 "batch_size" c.batch, .u64 "num_ops" c.numOps,
    .u64 "num_mem_cells" c.numCells]) "comm_comb_ops" c.ops) "comm_comb_mem" c.mem

/-- `SparseMatPolynomial::get_num_nz_entries` (sparse_mlpoly.rs:353-355). -/
def SparseMat.numNz (m : SparseMat F) : Nat := nextPow2 m.M.length

/-- `SparseMatPolynomial::sparse_to_dense_vecs` (sparse_mlpoly.rs:357-369): rows, columns, values. -/
def SparseMat.toDense (m : SparseMat F) (N : Nat) : Out (List Nat × List Nat × List F) := do
  check (m.numNz ≤ N)
  let k := N - m.M.length
  pure (m.M.map (·.row) ++ List.replicate k 0, m.M.map (·.col) ++ List.replicate k 0,
    m.M.map (·.val) ++ List.replicate k 0)

/-- `SparseMatPolynomial::multi_sparse_to_dense_rep` (sparse_mlpoly.rs:371-428). -/
def multiDense (ms : List (SparseMat F)) : Out (MultiDense F) := do
  let m0 ← idx ms 0
  check (∀ m ∈ ms, m.nx = m0.nx ∧ m.ny = m0.ny)
  let N := nextPow2 ((ms.map SparseMat.numNz).foldl max 0)
  let ds ← ms.mapM fun m => m.toDense N
  let val ← ds.mapM fun d => Dense.new d.2.2
  let cells := if m0.nx > m0.ny then 2 ^ m0.nx else 2 ^ m0.ny
  let row ← AddrTs.new cells N (ds.map (·.1))
  let col ← AddrTs.new cells N (ds.map (·.2.1))
  let combOps ← Dense.merge (row.addr ++ row.readTs ++ col.addr ++ col.readTs ++ val)
  let combMem ← row.auditTs.extend col.auditTs
  pure ⟨ms.length, val, row, col, combOps, combMem⟩

/-- `SparseMatPolynomial::multi_commit` (sparse_mlpoly.rs:490-510). -/
def multiCommit (E : Env F G P) (ms : List (SparseMat F)) (gens : SparseGens G) :
    Out (SparseComm P × MultiDense F) := do
  let d ← multiDense ms
  let (cOps, _, _) ← d.combOps.commit E gens.ops none
  let (cMem, _, _) ← d.combMem.commit E gens.mem none
  let r0 ← idx d.row.readTs 0
  pure (⟨ms.length, r0.len, d.row.auditTs.len, cOps, cMem⟩, d)

/-- `MultiSparseMatPolynomialAsDense::deref` (sparse_mlpoly.rs:514-519). -/
def MultiDense.deref (d : MultiDense F) (rowMem colMem : List F) : Out (Derefs F) := do
  let r ← d.row.deref rowMem
  let c ← d.col.deref colMem
  Derefs.new r c

/-! ### Memory-checking layers -/

/-- `hash_func` (sparse_mlpoly.rs:552-555, 851-854). -/
def memHash (rh a v t : F) : F := t * (rh * rh) + v * rh + a

/-- `ProductLayer` (sparse_mlpoly.rs:523-528). -/
structure ProdLayer (F : Type) where
  init : ProductCircuit F
  read : List (ProductCircuit F)
  write : List (ProductCircuit F)
  audit : ProductCircuit F

/-- One instance of the loop in `Layers::build_hash_layer` (sparse_mlpoly.rs:579-603): hashed
reads and writes. -/
def hashOps (rh g : F) (addr deref ts : Dense F) : Out (Dense F × Dense F) := do
  check (addr.len = deref.len)
  check (addr.len = ts.len)
  check (addr.len ≤ addr.Z.length ∧ addr.len ≤ deref.Z.length ∧ addr.len ≤ ts.Z.length)
  let rd ← Dense.new ((List.range addr.len).map fun i =>
    memHash rh (addr.Z.getD i 0) (deref.Z.getD i 0) (ts.Z.getD i 0) - g)
  let wr ← Dense.new ((List.range addr.len).map fun i =>
    memHash rh (addr.Z.getD i 0) (deref.Z.getD i 0) (ts.Z.getD i 0 + 1) - g)
  pure (rd, wr)

/-- `Layers::build_hash_layer` (sparse_mlpoly.rs:536-611): init, reads, writes, audit. -/
def buildHashLayer (rh g : F) (table : List F) (addrs derefs tss : List (Dense F)) (audit : Dense F) :
    Out (Dense F × List (Dense F) × List (Dense F) × Dense F) := do
  let init ← Dense.new ((List.range table.length).map fun (i : Nat) =>
    memHash rh (i : F) (table.getD i 0) 0 - g)
  check (table.length ≤ audit.Z.length)
  let aud ← Dense.new ((List.range table.length).map fun (i : Nat) =>
    memHash rh (i : F) (table.getD i 0) (audit.Z.getD i 0) - g)
  let rws ← (List.range addrs.length).mapM fun i => do
    let a ← idx addrs i
    let d ← idx derefs i
    let t ← idx tss i
    hashOps rh g a d t
  pure (init, rws.map (·.1), rws.map (·.2), aud)

/-- `Layers::new` (sparse_mlpoly.rs:613-660). -/
def layersNew (rh g : F) (table : List F) (t : AddrTs F) (derefs : List (Dense F)) :
    Out (ProdLayer F) := do
  let (init, rd, wr, aud) ← buildHashLayer rh g table t.addr derefs t.readTs t.auditTs
  let pi ← ProductCircuit.new init
  let pr ← rd.mapM ProductCircuit.new
  let pw ← wr.mapM ProductCircuit.new
  let pa ← ProductCircuit.new aud
  pure ⟨pi, pr, pw, pa⟩

/-! ### Product layer proof -/

/-- The evaluations of the four kinds of product circuits of one memory: `eval_row`, `eval_col`
(sparse_mlpoly.rs:1026-1027). -/
structure MemEvals (F : Type) where
  init : F
  read : List F
  write : List F
  audit : F

/-- `ProductLayerProof` (sparse_mlpoly.rs:1025-1031). -/
structure ProdLayerProof (F : Type) where
  row : MemEvals F
  col : MemEvals F
  dotpL : List F
  dotpR : List F
  mem : ProdProofBatched F
  ops : ProdProofBatched F

/-- Appending the claims of one memory (sparse_mlpoly.rs:1064-1067, 1085-1088, 1249-1252,
1264-1267); `w` is `row` or `col`. -/
def Tr.memEvals (tr : Tr F P) (w : String) (e : MemEvals F) : Tr F P :=
  (((tr.scalar ("claim_" ++ w ++ "_eval_init") e.init).scalars ("claim_" ++ w ++ "_eval_read")
    e.read).scalars ("claim_" ++ w ++ "_eval_write") e.write).scalar ("claim_" ++ w ++ "_eval_audit")
    e.audit

/-- Evaluations of one memory and the subset check (sparse_mlpoly.rs:1048-1062, 1069-1083). -/
def ProdLayer.evals (l : ProdLayer F) : Out (MemEvals F) := do
  let i ← l.init.evaluate
  let a ← l.audit.evaluate
  let r ← l.read.mapM ProductCircuit.evaluate
  let w ← l.write.mapM ProductCircuit.evaluate
  check (i * w.prod = r.prod * a)
  pure ⟨i, r, w, a⟩

/-- The loop over the dot-product circuits (sparse_mlpoly.rs:1098-1119): the two halves of each
circuit and their values. -/
def dotpLoop : List (Dense F × Dense F × Dense F) → List F → Tr F P →
    Out (List (DotProductCircuit F × DotProductCircuit F) × List (F × F) × Tr F P)
  | d :: ds, e :: es, tr => do
    let c ← DotProductCircuit.new d.1 d.2.1 d.2.2
    let (cl, cr) ← c.split
    let vl ← cl.evaluate
    let vr ← cr.evaluate
    let tr := (tr.scalar "claim_eval_dotp_left" vl).scalar "claim_eval_dotp_right" vr
    check (vl + vr = e)
    let (cs, vs, tr) ← dotpLoop ds es tr
    pure ((cl, cr) :: cs, (vl, vr) :: vs, tr)
  | _, _, tr => .ok ([], [], tr)

/-- `ProductLayerProof::prove` (sparse_mlpoly.rs:1038-1216): proof, `rand_mem`, `rand_ops`.  The
code picks elements 0, 1, 2 of each vector; the vectors have the length of `read_vec`, asserted
to be three. -/
def prodLayerProve (E : Env F G P) (row col : ProdLayer F) (val : List (Dense F)) (d : Derefs F)
    (eval : List F) (tr : Tr F P) : Out (ProdLayerProof F × List F × List F × Tr F P) := do
  let tr := tr.protocol "Sparse polynomial product layer proof"
  let er ← row.evals
  let tr := tr.memEvals "row" er
  let ec ← col.evals
  let tr := tr.memEvals "col" ec
  check (eval.length = d.row.length)
  check (eval.length = d.col.length)
  check (eval.length = val.length)
  let (dcs, dvs, tr) ← dotpLoop (List.zip d.row (List.zip d.col val)) eval tr
  check (row.read.length = 3)
  check (row.write.length = 3 ∧ col.read.length = 3 ∧ col.write.length = 3 ∧ dcs.length = 3)
  let (pOps, randOps, tr) ← prodBProve E (row.read ++ row.write ++ col.read ++ col.write)
    (dcs.flatMap fun c => [c.1, c.2]) tr
  let (pMem, randMem, tr) ← prodBProve E [row.init, row.audit, col.init, col.audit] [] tr
  pure (⟨er, ec, dvs.map (·.1), dvs.map (·.2), pMem, pOps⟩, randMem, randOps, tr)

/-- Length and subset checks of the verifier for one memory (sparse_mlpoly.rs:1239-1247,
1254-1262). -/
def memEvalsCheck (n : Nat) (e : MemEvals F) : Out Unit := do
  check (e.write.length = n)
  check (e.read.length = n)
  check (e.init * e.write.prod = e.read.prod * e.audit)

/-- The loop over the dot-product claims (sparse_mlpoly.rs:1274-1281). -/
def dotpCheckLoop : List F → List F → List F → Tr F P → Out (List F × Tr F P)
  | [], _, _, tr => .ok ([], tr)
  | e :: es, l :: ls, r :: rs, tr => do
    check (l + r = e)
    let tr := (tr.scalar "claim_eval_dotp_left" l).scalar "claim_eval_dotp_right" r
    let (cs, tr) ← dotpCheckLoop es ls rs tr
    pure (l :: r :: cs, tr)
  | _ :: _, _, _, _ => .error .panic

/-- `ProductLayerProof::verify` (sparse_mlpoly.rs:1218-1311).  Line 1271 compares
`eval_dotp_left.len()` with itself.  Returns `claims_mem`, `rand_mem`, `claims_ops`,
`claims_dotp`, `rand_ops`. -/
def prodLayerVerify (E : Env F G P) (pf : ProdLayerProof F) (numOps numCells : Nat) (eval : List F)
    (tr : Tr F P) : Out (List F × List F × List F × List F × List F × Tr F P) := do
  let tr := tr.protocol "Sparse polynomial product layer proof"
  memEvalsCheck eval.length pf.row
  let tr := tr.memEvals "row" pf.row
  memEvalsCheck eval.length pf.col
  let tr := tr.memEvals "col" pf.col
  check (pf.dotpL.length = eval.length)
  let (cd, tr) ← dotpCheckLoop eval pf.dotpL pf.dotpR tr
  let (claimsOps, claimsDotp, randOps, tr) ← prodBVerify E pf.ops
    (pf.row.read ++ pf.row.write ++ pf.col.read ++ pf.col.write) cd numOps tr
  let (claimsMem, _, randMem, tr) ← prodBVerify E pf.mem
    [pf.row.init, pf.row.audit, pf.col.init, pf.col.audit] [] numCells tr
  pure (claimsMem, randMem, claimsOps, claimsDotp, randOps, tr)

/-! ### Hash layer proof -/

/-- Decommitted evaluations of one memory: `eval_row`, `eval_col` of `HashLayerProof`
(sparse_mlpoly.rs:689-690): addresses, read timestamps, audit timestamp. -/
structure AddrEvals (F : Type) where
  addr : List F
  readTs : List F
  auditTs : F

/-- `HashLayerProof` (sparse_mlpoly.rs:688-696). -/
structure HashLayerProof (F P : Type) where
  row : AddrEvals F
  col : AddrEvals F
  val : List F
  derefRow : List F
  derefCol : List F
  ops : DotProductProofLog F P
  mem : DotProductProofLog F P
  derefs : DotProductProofLog F P

/-- `HashLayerProof::prove_helper` (sparse_mlpoly.rs:703-727). -/
def hashLayerHelper (randMem randOps : List F) (t : AddrTs F) : Out (AddrEvals F) := do
  let a ← t.addr.mapM fun d => d.evaluate randOps
  let r ← t.readTs.mapM fun d => d.evaluate randOps
  let u ← t.auditTs.evaluate randMem
  pure ⟨a, r, u⟩

/-- `evals_ops` (sparse_mlpoly.rs:770-776, 940-946). -/
def evalsOps (row col : AddrEvals F) (val : List F) : List F :=
  padPow2 (row.addr ++ row.readTs ++ col.addr ++ col.readTs ++ val)

/-- `HashLayerProof::prove` (sparse_mlpoly.rs:729-838). -/
def hashLayerProve (E : Env F G P) (randMem randOps : List F) (d : MultiDense F) (ds : Derefs F)
    (gens : SparseGens G) (tr : Tr F P) (tape : Tape F) :
    Out (HashLayerProof F P × Tr F P × Tape F) := do
  let tr := tr.protocol "Sparse polynomial hash layer proof"
  let er ← ds.row.mapM fun p => p.evaluate randOps
  let ec ← ds.col.mapM fun p => p.evaluate randOps
  let (pDerefs, tr, tape) ← derefsProve E ds er ec randOps gens.derefs tr tape
  let row ← hashLayerHelper randMem randOps d.row
  let col ← hashLayerHelper randMem randOps d.col
  let val ← d.val.mapM fun p => p.evaluate randOps
  let evOps := evalsOps row col val
  let tr := tr.scalars "claim_evals_ops" evOps
  let (cs, v, tr) ← combineEvals E "challenge_combine_n_to_one" evOps tr
  let tr := tr.scalar "joint_claim_eval_ops" v
  let (pOps, _, tr, tape) ← polyEvalProve E d.combOps none (cs ++ randOps) v none gens.ops tr tape
  let evMem := [row.auditTs, col.auditTs]
  let tr := tr.scalars "claim_evals_mem" evMem
  let (cs, v, tr) ← combineEvals E "challenge_combine_two_to_one" evMem tr
  let tr := tr.scalar "joint_claim_eval_mem" v
  let (pMem, _, tr, tape) ← polyEvalProve E d.combMem none (cs ++ randMem) v none gens.mem tr tape
  pure (⟨row, col, val, er, ec, pOps, pMem, pDerefs⟩, tr, tape)

/-- Product-layer claims of one memory: `claims_row`, `claims_col` (sparse_mlpoly.rs:842, 894-895). -/
abbrev MemClaims (F : Type) := MemEvals F

/-- The checks of `HashLayerProof::verify_helper` on reads and writes (sparse_mlpoly.rs:866-879).
The loops run over `eval_ops_addr`; the other vectors are indexed. -/
def hashOpsCheck (rh g : F) (ops addr ts cr cw : List F) : Out Unit := do
  let _ ← (List.range addr.length).mapM fun i => do
    let a ← idx addr i
    let v ← idx ops i
    let t ← idx ts i
    let c ← idx cr i
    check (memHash rh a v t - g = c)
  let _ ← (List.range addr.length).mapM fun i => do
    let a ← idx addr i
    let v ← idx ops i
    let t ← idx ts i
    let c ← idx cw i
    check (memHash rh a v (t + 1) - g = c)
  pure ()

/-- `HashLayerProof::verify_helper` (sparse_mlpoly.rs:840-889). -/
def hashLayerVerifyHelper (randMem : List F) (claims : MemClaims F) (ops : List F) (e : AddrEvals F)
    (r : List F) (rh g : F) : Out Unit := do
  let a ← identityEvaluate randMem.length randMem
  let v ← eqEvaluate r randMem
  check (memHash rh a v 0 - g = claims.init)
  hashOpsCheck rh g ops e.addr e.readTs claims.read claims.write
  check (memHash rh a v e.auditTs - g = claims.audit)

/-- The comparison of the dot-product claims with the decommitted values
(sparse_mlpoly.rs:924-934). -/
def dotpClaimsCheck (claims row col val : List F) : Out Unit := do
  check (claims.length = 3 * row.length)
  let _ ← (List.range (claims.length / 3)).mapM fun i => do
    let a ← idx claims (3 * i)
    let b ← idx claims (3 * i + 1)
    let c ← idx claims (3 * i + 2)
    let r ← idx row i
    check (a = r)
    let q ← idx col i
    check (b = q)
    let w ← idx val i
    check (c = w)
  pure ()

/-- `HashLayerProof::verify` (sparse_mlpoly.rs:891-1021). -/
def hashLayerVerify (E : Env F G P) (pf : HashLayerProof F P) (randMem randOps : List F)
    (clRow clCol : MemClaims F) (clDotp : List F) (comm : SparseComm P) (gens : SparseGens G)
    (cDerefs : List P) (rx ry : List F) (rh g : F) (tr : Tr F P) : Out (Tr F P) := do
  let tr := tr.protocol "Sparse polynomial hash layer proof"
  check (pf.derefRow.length = pf.derefCol.length)
  let tr ← derefsVerify E pf.derefs randOps pf.derefRow pf.derefCol gens.derefs cDerefs tr
  dotpClaimsCheck clDotp pf.derefRow pf.derefCol pf.val
  let evOps := evalsOps pf.row pf.col pf.val
  let tr := tr.scalars "claim_evals_ops" evOps
  let (cs, v, tr) ← combineEvals E "challenge_combine_n_to_one" evOps tr
  let tr := tr.scalar "joint_claim_eval_ops" v
  let tr ← polyEvalVerifyPlain E pf.ops gens.ops tr (cs ++ randOps) v comm.ops
  let evMem := [pf.row.auditTs, pf.col.auditTs]
  let tr := tr.scalars "claim_evals_mem" evMem
  let (cs, v, tr) ← combineEvals E "challenge_combine_two_to_one" evMem tr
  let tr := tr.scalar "joint_claim_eval_mem" v
  let tr ← polyEvalVerifyPlain E pf.mem gens.mem tr (cs ++ randMem) v comm.mem
  hashLayerVerifyHelper randMem clRow pf.derefRow pf.row rx rh g
  hashLayerVerifyHelper randMem clCol pf.derefCol pf.col ry rh g
  pure tr

/-! ### Evaluation network and evaluation proof -/

/-- `PolyEvalNetworkProof` (sparse_mlpoly.rs:1315-1318). -/
structure NetProof (F P : Type) where
  prod : ProdLayerProof F
  hash : HashLayerProof F P

/-- `PolyEvalNetworkProof::prove` (sparse_mlpoly.rs:1325-1359). -/
def netProve (E : Env F G P) (row col : ProdLayer F) (d : MultiDense F) (ds : Derefs F) (evals : List F)
    (gens : SparseGens G) (tr : Tr F P) (tape : Tape F) : Out (NetProof F P × Tr F P × Tape F) := do
  let tr := tr.protocol "Sparse polynomial evaluation proof"
  let (pp, randMem, randOps, tr) ← prodLayerProve E row col d.val ds evals tr
  let (ph, tr, tape) ← hashLayerProve E randMem randOps d ds gens tr tape
  pure (⟨pp, ph⟩, tr, tape)

/-- `PolyEvalNetworkProof::verify` (sparse_mlpoly.rs:1361-1422). -/
def netVerify (E : Env F G P) (pf : NetProof F P) (comm : SparseComm P) (cDerefs : List P)
    (evals : List F) (gens : SparseGens G) (rx ry : List F) (rh g : F) (nz : Nat) (tr : Tr F P) :
    Out (Tr F P) := do
  let tr := tr.protocol "Sparse polynomial evaluation proof"
  let n := evals.length
  check (rx.length = ry.length)
  let (cMem, randMem, cOps, cDotp, randOps, tr) ←
    prodLayerVerify E pf.prod (nextPow2 nz) (2 ^ rx.length) evals tr
  check (cMem.length = 4)
  check (cOps.length = 4 * n)
  check (cDotp.length = 3 * n)
  let cr := cOps.take (2 * n)
  let cc := cOps.drop (2 * n)
  hashLayerVerify E pf.hash randMem randOps
    ⟨cMem.getD 0 0, cr.take n, cr.drop n, cMem.getD 1 0⟩
    ⟨cMem.getD 2 0, cc.take n, cc.drop n, cMem.getD 3 0⟩ cDotp comm gens cDerefs rx ry rh g tr

/-- `SparseMatPolyEvalProof` (sparse_mlpoly.rs:1426-1429). -/
structure SparseEvalProof (F P : Type) where
  derefs : List P
  net : NetProof F P

/-- `SparseMatPolyEvalProof::equalize` (sparse_mlpoly.rs:1436-1452). -/
def equalize (rx ry : List F) : List F × List F :=
  if rx.length < ry.length then (List.replicate (ry.length - rx.length) 0 ++ rx, ry)
  else if ry.length < rx.length then (rx, List.replicate (rx.length - ry.length) 0 ++ ry)
  else (rx, ry)

/-- `SparseMatPolyEvalProof::prove` and `PolyEvalNetwork::new` (sparse_mlpoly.rs:1454-1521,
670-684). -/
def sparseProve (E : Env F G P) (d : MultiDense F) (rx ry evals : List F) (gens : SparseGens G)
    (tr : Tr F P) (tape : Tape F) : Out (SparseEvalProof F P × Tr F P × Tape F) := do
  let tr := tr.protocol "Sparse polynomial evaluation proof"
  check (evals.length = d.batch)
  let (rxe, rye) := equalize rx ry
  let memX := eqEvals rxe
  let memY := eqEvals rye
  let ds ← d.deref memX memY
  let cDerefs ← ds.commit E gens.derefs
  let tr := tr.derefsComm "comm_poly_row_col_ops_val" cDerefs
  let (rs, tr) := E.challengeVec tr "challenge_r_hash" 2
  let row ← layersNew (rs.getD 0 0) (rs.getD 1 0) memX d.row ds.row
  let col ← layersNew (rs.getD 0 0) (rs.getD 1 0) memY d.col ds.col
  let (net, tr, tape) ← netProve E row col d ds evals gens tr tape
  pure (⟨cDerefs, net⟩, tr, tape)

/-- `SparseMatPolyEvalProof::verify` (sparse_mlpoly.rs:1523-1559). -/
def sparseVerify (E : Env F G P) (pf : SparseEvalProof F P) (comm : SparseComm P) (rx ry evals : List F)
    (gens : SparseGens G) (tr : Tr F P) : Out (Tr F P) := do
  let tr := tr.protocol "Sparse polynomial evaluation proof"
  let (rxe, rye) := equalize rx ry
  check (2 ^ rxe.length = comm.numCells)
  let tr := tr.derefsComm "comm_poly_row_col_ops_val" pf.derefs
  let (rs, tr) := E.challengeVec tr "challenge_r_hash" 2
  netVerify E pf.net comm pf.derefs evals gens rxe rye (rs.getD 0 0) (rs.getD 1 0) comm.numOps tr

/-! ### r1csinstance.rs, lib.rs: the SNARK -/

/-- `R1CSCommitmentGens::new` (r1csinstance.rs:33-47). -/
def R1CSCommGens.new (S : GenSrc G) (label : List UInt8) (numCons numVars numInputs nz : Nat) :
    Out (SparseGens G) := do
  check (numInputs < numVars)
  let nx ← log2 numCons
  let ny ← log2 (2 * numVars)
  SparseGens.new S label nx ny nz 3

/-- `SNARKGens` (lib.rs:280-283). -/
structure SNARKGens (G : Type) where
  sat : R1CSGens G
  eval : SparseGens G

/-- `SNARKGens::new` (lib.rs:288-309), labels `b"gens_r1cs_sat"` and `b"gens_r1cs_eval"`. -/
def SNARKGens.new (S : GenSrc G) (labelSat labelEval : List UInt8) (numCons numVars numInputs nz : Nat) :
    Out (SNARKGens G) := do
  let sat ← R1CSGens.new S labelSat (varsPadded numVars numInputs)
  let ev ← R1CSCommGens.new S labelEval numCons (varsPadded numVars numInputs) numInputs nz
  pure ⟨sat, ev⟩

/-- `R1CSCommitment` (r1csinstance.rs:50-55). -/
structure R1CSComm (P : Type) where
  numCons : Nat
  numVars : Nat
  numInputs : Nat
  comm : SparseComm P

/-- `AppendToTranscript for R1CSCommitment` (r1csinstance.rs:57-64). -/
def Tr.r1csComm (tr : Tr F P) (c : R1CSComm P) : Tr F P :=
  Tr.sparseComm (tr ++ [.u64 "num_cons" c.numCons, .u64 "num_vars" c.numVars,
    .u64 "num_inputs" c.numInputs]) c.comm

/-- `SNARK::encode` and `R1CSInstance::commit` (lib.rs:326-337, r1csinstance.rs:304-316). -/
def SNARK.encode (E : Env F G P) (I : Inst F) (gens : SNARKGens G) : Out (R1CSComm P × MultiDense F) := do
  let (c, d) ← multiCommit E [I.inst.A, I.inst.B, I.inst.C] gens.eval
  pure (⟨I.inst.numCons, I.inst.numVars, I.inst.numInputs, c⟩, d)

/-- `SNARK` (lib.rs:314-318). -/
structure SNARK (F P : Type) where
  sat : R1CSProof F P
  evals : F × F × F
  eval : SparseEvalProof F P

/-- The appended evaluation claims (lib.rs:392-394, 451-453). -/
def Tr.evalClaims (tr : Tr F P) (e : F × F × F) : Tr F P :=
  ((tr.scalar "Ar_claim" e.1).scalar "Br_claim" e.2.1).scalar "Cr_claim" e.2.2

/-- `SNARK::prove` (lib.rs:340-421); serialising the proofs for the log has no effect. -/
def SNARK.prove (E : Env F G P) (I : Inst F) (comm : R1CSComm P) (decomm : MultiDense F)
    (vars inputs : List F) (gens : SNARKGens G) (tr : Tr F P) (tape : Tape F) :
    Out (SNARK F P × Tr F P) := do
  let tr := (tr.protocol "Spartan SNARK proof").r1csComm comm
  let pv ← padVars vars I.inst.numVars
  let (pf, rx, ry, tr, tape) ← R1CSProof.prove E I.inst pv inputs gens.sat tr tape
  let ev ← I.inst.evaluate rx ry
  let tr := tr.evalClaims ev
  let (pe, tr, _) ← sparseProve E decomm rx ry [ev.1, ev.2.1, ev.2.2] gens.eval tr tape
  pure (⟨pf, ev, pe⟩, tr)

/-- `SNARK::verify` (lib.rs:424-465). -/
def SNARK.verify (E : Env F G P) (pf : SNARK F P) (comm : R1CSComm P) (input : List F) (gens : SNARKGens G)
    (tr : Tr F P) : Out (Tr F P) := do
  let tr := (tr.protocol "Spartan SNARK proof").r1csComm comm
  check (input.length = comm.numInputs)
  let (rx, ry, tr) ← pf.sat.verify E comm.numVars comm.numCons input pf.evals gens.sat tr
  let tr := tr.evalClaims pf.evals
  sparseVerify E pf.eval comm.comm rx ry [pf.evals.1, pf.evals.2.1, pf.evals.2.2] gens.eval tr

end Spartan
