import Verif.Model.Bullet
import Mathlib.Data.List.GetD

/-! Polynomial code: `math.rs`, `unipoly.rs`, `dense_mlpoly.rs` and the sparse
evaluation functions of `sparse_mlpoly.rs` (all in Spartan-secq/src).  Integers
of type `usize` are natural numbers; where 64-bit overflow matters it is modelled
explicitly. -/

namespace Spartan

/-! ### math.rs -/

/-- `usize::leading_zeros` for `n < 2^64` (core library).  Used at `math.rs` l. 31, 33. -/
def leadingZeros (n : Nat) : Nat := 64 - (if n = 0 then 0 else Nat.log2 n + 1)

/-- `usize::is_power_of_two` (core library).  Used at `math.rs` l. 30. -/
def isPow2 (n : Nat) : Bool := n ≠ 0 ∧ 2 ^ Nat.log2 n = n

/-- `usize::log_2` (math.rs:27-35), bit level. -/
def log2Code (n : Nat) : Out Nat := do
  check (n ≠ 0)
  if isPow2 n then pure (leadingZeros 1 - leadingZeros n)
  else pure (leadingZeros 0 - leadingZeros n)

/-- `usize::pow2` (math.rs:14-18) in a debug build: `2.pow(self as u32)`; the cast
truncates and the multiplication overflow panics. -/
def pow2Code (k : Nat) : Out Nat :=
  let e := k % 2 ^ 32
  if e < 64 then .ok (2 ^ e) else .error .panic

/-- `usize::get_bits` (math.rs:20-25). -/
def getBits (n numBits : Nat) : List Bool :=
  (List.range numBits).map fun s => decide ((n &&& (1 <<< (numBits - s - 1))) > 0)

/-- `usize::next_power_of_two` (core library, no overflow).
Used at `sparse_mlpoly.rs` l. 144, 195, 301, 308, 354, 384, 776, 946. -/
def nextPow2 (n : Nat) : Nat := 2 ^ Nat.clog 2 n

variable {F G P : Type} [Field F] [AddCommGroup G] [Module F G]
  [DecidableEq F] [DecidableEq P] [DecidableEq G]

/-! ### unipoly.rs -/

/-- `UniPoly` (unipoly.rs:11-13): coefficients, constant term first. -/
structure UniPoly (F : Type) where
  coeffs : List F
  deriving DecidableEq

/-- `CompressedUniPoly` (unipoly.rs:18-20). -/
structure CompressedUniPoly (F : Type) where
  coeffs : List F
  deriving DecidableEq

/-- `UniPoly::from_evals` (unipoly.rs:23-54). -/
def UniPoly.fromEvals : List F → Out (UniPoly F)
  | [e0, e1, e2] => do
    let twoInv ← invertU (2 : F)
    let c := e0
    let a := twoInv * (e2 - e1 - e1 + c)
    let b := e1 - c - a
    pure ⟨[c, b, a]⟩
  | [e0, e1, e2, e3] => do
    let twoInv ← invertU (2 : F)
    let sixInv ← invertU (6 : F)
    let d := e0
    let a := sixInv * (e3 - e2 - e2 - e2 + e1 + e1 + e1 - e0)
    let b := twoInv * (e0 + e0 - e1 - e1 - e1 - e1 - e1 + e2 + e2 + e2 + e2 - e3)
    let c := e1 - d - a - b
    pure ⟨[d, c, b, a]⟩
  | _ => .error .panic

/-- `UniPoly::degree` (unipoly.rs:56-58); the subtraction underflows on an empty vector. -/
def UniPoly.degree (p : UniPoly F) : Out Nat := do
  check (1 ≤ p.coeffs.length)
  pure (p.coeffs.length - 1)

/-- `UniPoly::eval_at_zero` (unipoly.rs:64-66). -/
def UniPoly.evalAtZero (p : UniPoly F) : Out F :=
  match p.coeffs with
  | [] => .error .panic
  | c :: _ => .ok c

/-- `UniPoly::eval_at_one` (unipoly.rs:68-70). -/
def UniPoly.evalAtOne (p : UniPoly F) : F := p.coeffs.sum

/-- Loop of `UniPoly::evaluate` (unipoly.rs:75-78): remaining coefficients,
accumulator, current power. -/
def UniPoly.evalLoop (r : F) : List F → F → F → F
  | [], eval, _ => eval
  | c :: cs, eval, power => UniPoly.evalLoop r cs (eval + power * c) (power * r)

/-- `UniPoly::evaluate` (unipoly.rs:72-80). -/
def UniPoly.evaluate (p : UniPoly F) (r : F) : Out F :=
  match p.coeffs with
  | [] => .error .panic
  | c :: cs => .ok (UniPoly.evalLoop r cs c r)

/-- `UniPoly::compress` (unipoly.rs:82-88); slicing `[2..]` panics below two coefficients. -/
def UniPoly.compress (p : UniPoly F) : Out (CompressedUniPoly F) :=
  match p.coeffs with
  | c0 :: _ :: cs => .ok ⟨c0 :: cs⟩
  | _ => .error .panic

/-- `CompressedUniPoly::decompress` (unipoly.rs:98-109). -/
def CompressedUniPoly.decompress (p : CompressedUniPoly F) (hint : F) : Out (UniPoly F) :=
  match p.coeffs with
  | [] => .error .panic
  | c0 :: cs => .ok ⟨c0 :: cs.foldl (fun acc c => acc - c) (hint - c0 - c0) :: cs⟩

/-- `AppendToTranscript for UniPoly` (unipoly.rs:112-120). -/
def UniPoly.append (p : UniPoly F) (l : String) (tr : Tr F P) : Tr F P :=
  tr ++ [.bytes l "UniPoly_begin"] ++ p.coeffs.map (.scalar "coeff") ++ [.bytes l "UniPoly_end"]

/-! ### dense_mlpoly.rs -/

/-- Inner loop of `EqPolynomial::evals` (dense_mlpoly.rs:76-81).  The loop index
`i = 2k+1` runs downwards over `size/2` pairs; `k+1` pairs remain. -/
def eqInner (r : F) : Nat → List F → List F
  | 0, ev => ev
  | k + 1, ev =>
    let s := ev.getD k 0
    let hi := s * r
    eqInner r k ((ev.set (2 * k + 1) hi).set (2 * k) (s - hi))

/-- Outer loop of `EqPolynomial::evals` (dense_mlpoly.rs:73-82); `size` before doubling. -/
def eqOuter : List F → Nat → List F → List F
  | [], _, ev => ev
  | r :: rs, size, ev => eqOuter rs (2 * size) (eqInner r size ev)

/-- `EqPolynomial::evals` (dense_mlpoly.rs:68-84). -/
def eqEvals (r : List F) : List F := eqOuter r 1 (List.replicate (2 ^ r.length) 1)

/-- `EqPolynomial::evaluate` (dense_mlpoly.rs:61-66). -/
def eqEvaluate (r rx : List F) : Out F := do
  check (r.length = rx.length)
  pure (List.zipWith (fun a b => a * b + (1 - a) * (1 - b)) r rx).prod

/-- `EqPolynomial::compute_factored_lens` (dense_mlpoly.rs:86-88). -/
def factoredLens (ell : Nat) : Nat × Nat := (ell / 2, ell - ell / 2)

/-- `EqPolynomial::compute_factored_evals` (dense_mlpoly.rs:90-98). -/
def factoredEvals (r : List F) : List F × List F :=
  (eqEvals (r.take (factoredLens r.length).1), eqEvals (r.drop (factoredLens r.length).1))

/-- `IdentityPolynomial::evaluate` (dense_mlpoly.rs:110-116). -/
def identityEvaluate (sizePoint : Nat) (r : List F) : Out F := do
  check (r.length = sizePoint)
  pure ((List.range r.length).map fun i => ((2 ^ (r.length - i - 1) : Nat) : F) * r.getD i 0).sum

/-- `DensePolynomial` (dense_mlpoly.rs:18-23). -/
structure Dense (F : Type) where
  numVars : Nat
  len : Nat
  Z : List F

/-- `DensePolynomial::new` (dense_mlpoly.rs:120-126). -/
def Dense.new (Z : List F) : Out (Dense F) := do
  let k ← log2 Z.length
  pure ⟨k, Z.length, Z⟩

/-- `DensePolynomial::bound_poly_var_top` (dense_mlpoly.rs:215-222): overwrites the
first half in place and leaves the rest of `Z`. -/
def Dense.boundTop (d : Dense F) (r : F) : Out (Dense F) := do
  let n := d.len / 2
  check (2 * n ≤ d.Z.length)
  check (1 ≤ d.numVars)
  pure ⟨d.numVars - 1, n,
    List.zipWith (fun a b => a + r * (b - a)) (d.Z.take n) ((d.Z.drop n).take n) ++ d.Z.drop n⟩

/-- Index loop of `DensePolynomial::bound_poly_var_bot` (dense_mlpoly.rs:226-228). -/
def boundBotLoop (r : F) : Nat → Nat → List F → List F
  | 0, _, Z => Z
  | m + 1, i, Z =>
    boundBotLoop r m (i + 1)
      (Z.set i (Z.getD (2 * i) 0 + r * (Z.getD (2 * i + 1) 0 - Z.getD (2 * i) 0)))

/-- `DensePolynomial::bound_poly_var_bot` (dense_mlpoly.rs:224-231). -/
def Dense.boundBot (d : Dense F) (r : F) : Out (Dense F) := do
  let n := d.len / 2
  check (2 * n ≤ d.Z.length)
  check (1 ≤ d.numVars)
  pure ⟨d.numVars - 1, n, boundBotLoop r n 0 d.Z⟩

/-- `DensePolynomial::evaluate` (dense_mlpoly.rs:233-240). -/
def Dense.evaluate (d : Dense F) (r : List F) : Out F := do
  check (r.length = d.numVars)
  let chis := eqEvals r
  check (chis.length = d.Z.length)
  innerProduct d.Z chis

/-- `DensePolynomial::bound` (dense_mlpoly.rs:206-213). -/
def Dense.bound (d : Dense F) (L : List F) : Out (List F) := do
  let lSize := 2 ^ (factoredLens d.numVars).1
  let rSize := 2 ^ (factoredLens d.numVars).2
  check (lSize ≤ L.length)
  check (lSize * rSize ≤ d.Z.length)
  pure ((List.range rSize).map fun i =>
    ((List.range lSize).map fun j => L.getD j 0 * d.Z.getD (j * rSize + i) 0).sum)

/-- `DensePolynomial::split` (dense_mlpoly.rs:140-146). -/
def Dense.split (d : Dense F) (idx : Nat) : Out (Dense F × Dense F) := do
  check (idx < d.len)
  check (2 * idx ≤ d.Z.length)
  let a ← Dense.new (d.Z.take idx)
  let b ← Dense.new ((d.Z.drop idx).take idx)
  pure (a, b)

/-- `DensePolynomial::extend` (dense_mlpoly.rs:246-255). -/
def Dense.extend (d other : Dense F) : Out (Dense F) := do
  check (d.Z.length = d.len)
  check (other.Z.length = d.len)
  pure ⟨d.numVars + 1, d.len * 2, d.Z ++ other.Z⟩

/-- `DensePolynomial::merge` (dense_mlpoly.rs:257-270). -/
def Dense.merge (polys : List (Dense F)) : Out (Dense F) :=
  let Z := (polys.map (·.Z)).flatten
  Dense.new (Z ++ List.replicate (nextPow2 Z.length - Z.length) 0)

/-- `DensePolynomial::from_usize` (dense_mlpoly.rs:272-278). -/
def Dense.fromUsize (Z : List Nat) : Out (Dense F) := Dense.new (Z.map fun n : Nat => (n : F))

/-- Rows of a table of width `w`.  The slicing of `dense_mlpoly.rs` l. 148–177. -/
def rowsOf (w : Nat) : Nat → List F → List (List F)
  | 0, _ => []
  | n + 1, Z => Z.take w :: rowsOf w n (Z.drop w)

/-- `DensePolynomial::commit_inner` (dense_mlpoly.rs:148-177). -/
def Dense.commitInner (E : Env F G P) (d : Dense F) (blinds : List F) (g : Gens G) :
    Out (List P) := do
  let lSize := blinds.length
  check (lSize ≠ 0)
  let rSize := d.Z.length / lSize
  check (lSize * rSize = d.Z.length)
  (List.zip (rowsOf rSize lSize d.Z) blinds).mapM fun (row, b) => do
    pure (E.compress (← commitV row b g))

/-- `DensePolynomial::commit` (dense_mlpoly.rs:179-204); `tape = none` gives zero blinds. -/
def Dense.commit (E : Env F G P) (d : Dense F) (gens : DotGens G) (tape : Option (Tape F)) :
    Out (List P × List F × Option (Tape F)) := do
  check (d.Z.length = 2 ^ d.numVars)
  let lSize := 2 ^ (factoredLens d.numVars).1
  let rSize := 2 ^ (factoredLens d.numVars).2
  check (lSize * rSize = d.Z.length)
  let (blinds, tape) := match tape with
    | some t => let (b, t) := t.nextVec lSize; (b, some t)
    | none => (List.replicate lSize 0, none)
  let C ← d.commitInner E blinds gens.gensn
  pure (C, blinds, tape)

/-- `AppendToTranscript for PolyCommitment` (dense_mlpoly.rs:290-298). -/
def Tr.polyComm (tr : Tr F P) (l : String) (C : List P) : Tr F P :=
  tr ++ [.bytes l "poly_commitment_begin"] ++ C.map (.point "poly_commitment_share")
    ++ [.bytes l "poly_commitment_end"]

/-- `PolyEvalProof::prove` (dense_mlpoly.rs:310-363). -/
def polyEvalProve (E : Env F G P) (poly : Dense F) (blinds : Option (List F)) (r : List F)
    (Zr : F) (blindZr : Option F) (gens : DotGens G) (tr : Tr F P) (tape : Tape F) :
    Out (DotProductProofLog F P × P × Tr F P × Tape F) := do
  let tr := tr.protocol "polynomial evaluation proof"
  check (poly.numVars = r.length)
  let lSize := 2 ^ (factoredLens r.length).1
  let rSize := 2 ^ (factoredLens r.length).2
  let blinds := blinds.getD (List.replicate lSize 0)
  check (blinds.length = lSize)
  let blindZr := blindZr.getD 0
  let (L, R) := factoredEvals r
  check (L.length = lSize)
  check (R.length = rSize)
  let LZ ← poly.bound L
  let LZblind := dot blinds L
  let (pf, _, Czr, tr, tape) ← DotProductProofLog.prove E gens tr tape LZ LZblind R Zr blindZr
  pure (pf, Czr, tr, tape)

/-- `PolyEvalProof::verify` (dense_mlpoly.rs:365-387). -/
def polyEvalVerify (E : Env F G P) (pf : DotProductProofLog F P) (gens : DotGens G) (tr : Tr F P)
    (r : List F) (Czr : P) (comm : List P) : Out (Tr F P) := do
  let tr := tr.protocol "polynomial evaluation proof"
  let (L, R) := factoredEvals r
  let C ← comm.mapM E.decompressU
  let Clz := E.compress (← msm L C)
  pf.verify E R.length gens tr R Clz Czr

/-- `PolyEvalProof::verify_plain` (dense_mlpoly.rs:389-401). -/
def polyEvalVerifyPlain (E : Env F G P) (pf : DotProductProofLog F P) (gens : DotGens G)
    (tr : Tr F P) (r : List F) (Zr : F) (comm : List P) : Out (Tr F P) := do
  let Czr := E.compress (← commit1 Zr 0 gens.gens1)
  polyEvalVerify E pf gens tr r Czr comm

/-! ### sparse_mlpoly.rs: evaluation -/

/-- `SparseMatEntry` (sparse_mlpoly.rs:20-24). -/
structure Entry (F : Type) where
  row : Nat
  col : Nat
  val : F
  deriving DecidableEq

/-- `SparseMatPolynomial` (sparse_mlpoly.rs:32-37). -/
structure SparseMat (F : Type) where
  nx : Nat
  ny : Nat
  M : List (Entry F)
  deriving DecidableEq

/-- Vector indexing `v[i]`.  For example `sparse_mlpoly.rs` l. 430–442. -/
def idx {α : Type} (v : List α) (i : Nat) : Out α :=
  match v[i]? with
  | some a => .ok a
  | none => .error .panic

/-- `SparseMatPolynomial::evaluate_with_tables` (sparse_mlpoly.rs:430-442). -/
def SparseMat.evalTables (m : SparseMat F) (tx ty : List F) : Out F := do
  check (2 ^ m.nx = tx.length)
  check (2 ^ m.ny = ty.length)
  let vs ← m.M.mapM fun e => do
    let a ← idx tx e.row
    let b ← idx ty e.col
    pure (a * b * e.val)
  pure vs.sum

/-- `SparseMatPolynomial::multi_evaluate` (sparse_mlpoly.rs:444-455), one matrix. -/
def SparseMat.evaluate (m : SparseMat F) (rx ry : List F) : Out F :=
  m.evalTables (eqEvals rx) (eqEvals ry)

/-- `v[i] += x`.  `sparse_mlpoly.rs` l. 457–471. -/
def addAt (v : List F) (i : Nat) (x : F) : Out (List F) := do
  let a ← idx v i
  pure (v.set i (a + x))

/-- `SparseMatPolynomial::multiply_vec` (sparse_mlpoly.rs:457-471). -/
def SparseMat.multiplyVec (m : SparseMat F) (numRows numCols : Nat) (z : List F) :
    Out (List F) := do
  check (z.length = numCols)
  m.M.foldlM (fun acc e => do
    let zc ← idx z e.col
    addAt acc e.row (e.val * zc)) (List.replicate numRows 0)

/-- `SparseMatPolynomial::compute_eval_table_sparse` (sparse_mlpoly.rs:473-488). -/
def SparseMat.evalTable (m : SparseMat F) (rx : List F) (numRows numCols : Nat) :
    Out (List F) := do
  check (rx.length = numRows)
  m.M.foldlM (fun acc e => do
    let x ← idx rx e.row
    addAt acc e.col (x * e.val)) (List.replicate numCols 0)

/-- `SparsePolynomial::compute_chi` (sparse_mlpoly.rs:1583-1594). -/
def computeChi (a : List Bool) (r : List F) : Out F := do
  check (a.length = r.length)
  pure ((List.zip a r).foldl (fun c (b, x) => if b then c * x else c * (1 - x)) 1)

/-- `SparsePolynomial::evaluate` (sparse_mlpoly.rs:1597-1606); entries are
`(idx, val)`. -/
def sparseEvaluate (numVars : Nat) (Z : List (Nat × F)) (r : List F) : Out F := do
  check (numVars = r.length)
  let vs ← Z.mapM fun (i, v) => do
    let c ← computeChi (getBits i r.length) r
    pure (c * v)
  pure vs.sum

end Spartan
