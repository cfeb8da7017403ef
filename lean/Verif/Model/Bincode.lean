import Verif.Model.SparseProof
import Verif.Model.Reader

/-!
The bytes of proofs, circuits and commitments: `bincode::serialize` and `bincode::deserialize`
(bincode 1.3.3: fixed-width little-endian integers, no size limit, trailing bytes allowed) on the
types of `Spartan-secq` that derive `Serialize`/`Deserialize`.

Bincode and serde are not in the repository.  The combinators below transcribe what they do: a
sequence is its length as a `u64` and then its elements; a struct, a tuple or an array is its fields
in order.
-/

namespace Spartan

/-- How `bincode::deserialize` fails: it returns an error, or code of this repository called from it
panics.  Called at `wasm.rs` l. 28, 59 and 60. -/
inductive DFail
  | error
  | panic
  deriving DecidableEq, Repr

/-- A deserialiser: the bytes ahead ↦ value and the bytes left.
Called at `wasm.rs` l. 28, 59 and 60. -/
abbrev Dec (α : Type) := List UInt8 → Except DFail (α × List UInt8)

/-- Serialiser and deserialiser of a type.
Called at `wasm.rs` l. 28, 54, 59, 60 and `gen_spartan_inst.rs` l. 16. -/
structure Fmt (α : Type) where
  enc : α → List UInt8
  dec : Dec α

namespace Fmt
variable {α β : Type}

/-- `serialize_u64`/`deserialize_u64` of bincode: 8 little-endian bytes.
External (bincode 1.3.3, called at `wasm.rs` l. 28, 54, 59, 60). -/
def u64 : Fmt Nat where
  enc n := leBytes 8 n
  dec bs := if 8 ≤ bs.length then .ok (leNat (bs.take 8), bs.drop 8) else .error .error

/-- `usize`: a `u64`; reading it fails when it does not fit in `bits` bits (32 on wasm32).  The same
check is made of the length of a sequence.
External (bincode 1.3.3, called at `wasm.rs` l. 28, 54, 59, 60). -/
def usize (bits : Nat) : Fmt Nat where
  enc := u64.enc
  dec bs :=
    match u64.dec bs with
    | .error e => .error e
    | .ok (n, bs) => if n < 2 ^ bits then .ok (n, bs) else .error .error

/-- `n` values in sequence.  External (bincode 1.3.3, called at `wasm.rs` l. 28, 54, 59, 60). -/
def decMany (d : Dec α) : Nat → Dec (List α)
  | 0, bs => .ok ([], bs)
  | n + 1, bs =>
    match d bs with
    | .error e => .error e
    | .ok (x, bs) =>
      match decMany d n bs with
      | .error e => .error e
      | .ok (xs, bs) => .ok (x :: xs, bs)

/-- `Vec<T>`.  External (bincode 1.3.3, called at `wasm.rs` l. 28, 54, 59, 60). -/
def vec (bits : Nat) (f : Fmt α) : Fmt (List α) where
  enc xs := (usize bits).enc xs.length ++ xs.flatMap f.enc
  dec bs :=
    match (usize bits).dec bs with
    | .error e => .error e
    | .ok (n, bs) => decMany f.dec n bs

/-- Two fields in order.  External (bincode 1.3.3, called at `wasm.rs` l. 28, 54, 59, 60). -/
def pair (f : Fmt α) (g : Fmt β) : Fmt (α × β) where
  enc x := f.enc x.1 ++ g.enc x.2
  dec bs :=
    match f.dec bs with
    | .error e => .error e
    | .ok (x, bs) =>
      match g.dec bs with
      | .error e => .error e
      | .ok (y, bs) => .ok ((x, y), bs)

/-- A struct given by the tuple of its fields.
External (bincode 1.3.3, called at `wasm.rs` l. 28, 54, 59, 60). -/
def struct (f : Fmt α) (mk : α → β) (fields : β → α) : Fmt β where
  enc x := f.enc (fields x)
  dec bs :=
    match f.dec bs with
    | .error e => .error e
    | .ok (x, bs) => .ok (mk x, bs)

/-- One byte (`u8`).  External (bincode 1.3.3, called at `wasm.rs` l. 28, 54, 59, 60). -/
def u8 : Fmt UInt8 where
  enc b := [b]
  dec
    | [] => .error .error
    | b :: bs => .ok (b, bs)

end Fmt

/-- The leaves of the format.
* `scalar`: `Scalar::to_bytes`; `raw`: `Scalar::from_raw` of the four limbs that 32 bytes make
  (`Spartan-secq/src/scalar/scalar.rs` l. 206–253, see `MParams.serScalar` and `MParams.visitSeq`);
* `point`: `EncodedPoint::as_bytes`; `parse`: `EncodedPoint::from_bytes` (sec1 0.3);
* `bits`: width of `usize`. -/
structure Wire (F P : Type) where
  scalar : F → List UInt8
  raw : List UInt8 → F
  point : P → List UInt8
  parse : List UInt8 → Option P
  bits : Nat

namespace Wire
variable {F P : Type} (W : Wire F P)

/-- `Serialize`/`Deserialize` for `Scalar`, `scalar.rs` l. 206–253: a sequence of bytes.  The visitor
takes 32 elements with `next_element().unwrap().unwrap()` — a panic when the announced length or the
input ends before — and does not look whether the sequence announced more. -/
def fScalar : Fmt F where
  enc x := (Fmt.usize W.bits).enc (W.scalar x).length ++ W.scalar x
  dec bs :=
    match (Fmt.usize W.bits).dec bs with
    | .error e => .error e
    | .ok (n, bs) =>
      if n < 32 ∨ bs.length < 32 then .error .panic else .ok (W.raw (bs.take 32), bs.drop 32)

/-- `CompressedGroup` (`EncodedPoint` of sec1): a byte sequence, checked by `from_bytes`.
The type is `group.rs` l. 9. -/
def fPoint : Fmt P where
  enc p := (Fmt.vec W.bits Fmt.u8).enc (W.point p)
  dec bs :=
    match (Fmt.vec W.bits Fmt.u8).dec bs with
    | .error e => .error e
    | .ok (b, bs) =>
      match W.parse b with
      | none => .error .error
      | some p => .ok (p, bs)

/-- `Vec<Scalar>`, for example `unipoly.rs` l. 17–19. -/
def fScalars : Fmt (List F) := .vec W.bits W.fScalar
/-- `Vec<CompressedGroup>`, for example `dense_mlpoly.rs` l. 42–45. -/
def fPoints : Fmt (List P) := .vec W.bits W.fPoint

/-! ### The proof of satisfiability -/

/-- `KnowledgeProof`, `nizk/mod.rs` l. 16–21. -/
def fKnowledge : Fmt (KnowledgeProof F P) :=
  .struct (.pair W.fPoint (.pair W.fScalar W.fScalar))
    (fun (a, z1, z2) => ⟨a, z1, z2⟩) (fun p => (p.alpha, p.z1, p.z2))

/-- `EqualityProof`, `nizk/mod.rs` l. 78–82. -/
def fEquality : Fmt (EqualityProof F P) :=
  .struct (.pair W.fPoint W.fScalar) (fun (a, z) => ⟨a, z⟩) (fun p => (p.alpha, p.z))

/-- `ProductProof`, `nizk/mod.rs` l. 147–153. -/
def fProduct : Fmt (ProductProof F P) :=
  .struct (.pair W.fPoint (.pair W.fPoint (.pair W.fPoint (.pair W.fScalar (.pair W.fScalar
      (.pair W.fScalar (.pair W.fScalar W.fScalar)))))))
    (fun (a, b, d, z1, z2, z3, z4, z5) => ⟨a, b, d, z1, z2, z3, z4, z5⟩)
    (fun p => (p.alpha, p.beta, p.delta, p.z1, p.z2, p.z3, p.z4, p.z5))

/-- `DotProductProof`, `nizk/mod.rs` l. 293–300. -/
def fDot : Fmt (DotProductProof F P) :=
  .struct (.pair W.fPoint (.pair W.fPoint (.pair W.fScalars (.pair W.fScalar W.fScalar))))
    (fun (d, b, z, zd, zb) => ⟨d, b, z, zd, zb⟩) (fun p => (p.delta, p.beta, p.z, p.z_delta, p.z_beta))

/-- `BulletReductionProof`, `nizk/bullet.rs` l. 16–20. -/
def fBullet : Fmt (BulletProof P) :=
  .struct (.pair W.fPoints W.fPoints) (fun (l, r) => ⟨l, r⟩) (fun p => (p.L, p.R))

/-- `DotProductProofLog`, `nizk/mod.rs` l. 421–428; also `PolyEvalProof`, `dense_mlpoly.rs`
l. 300–303, and `DerefsEvalProof`, `sparse_mlpoly.rs` l. 74–77, which wrap it. -/
def fDotLog : Fmt (DotProductProofLog F P) :=
  .struct (.pair W.fBullet (.pair W.fPoint (.pair W.fPoint (.pair W.fScalar W.fScalar))))
    (fun (b, d, be, z1, z2) => ⟨b, d, be, z1, z2⟩) (fun p => (p.bullet, p.delta, p.beta, p.z1, p.z2))

/-- `ZKSumcheckInstanceProof`, `sumcheck.rs` l. 65–70. -/
def fZK : Fmt (ZKSumcheck F P) :=
  .struct (.pair W.fPoints (.pair W.fPoints (.vec W.bits W.fDot)))
    (fun (a, b, c) => ⟨a, b, c⟩) (fun p => (p.commPolys, p.commEvals, p.proofs))

/-- `R1CSProof`, `r1csproof.rs` l. 22–38. -/
def fR1CSProof : Fmt (R1CSProof F P) :=
  .struct (.pair W.fPoints (.pair W.fZK (.pair (.pair W.fPoint (.pair W.fPoint (.pair W.fPoint W.fPoint)))
      (.pair (.pair W.fKnowledge W.fProduct) (.pair W.fEquality (.pair W.fZK (.pair W.fPoint
        (.pair W.fDotLog W.fEquality))))))))
    (fun (cv, s1, (a, b, c, p), (k, pr), e1, s2, r, ev, e2) => ⟨cv, s1, a, b, c, p, k, pr, e1, s2, r, ev, e2⟩)
    (fun p => (p.commVars, p.sc1, (p.commAz, p.commBz, p.commCz, p.commProd), (p.pokCz, p.proofProd), p.eq1,
      p.sc2, p.commVarsAtRy, p.evalVars, p.eq2))

/-- `NIZK`, `lib.rs` l. 490–494: the proof and `(rx, ry)`. -/
def fNIZK : Fmt (NIZK F P) :=
  .struct (.pair W.fR1CSProof (.pair W.fScalars W.fScalars))
    (fun (s, x, y) => ⟨s, x, y⟩) (fun p => (p.sat, p.rx, p.ry))

/-! ### The circuit -/

/-- `SparseMatEntry`, `sparse_mlpoly.rs` l. 19–24. -/
def fEntry : Fmt (Entry F) :=
  .struct (.pair (.usize W.bits) (.pair (.usize W.bits) W.fScalar))
    (fun (r, c, v) => ⟨r, c, v⟩) (fun e => (e.row, e.col, e.val))

/-- `SparseMatPolynomial`, `sparse_mlpoly.rs` l. 32–37. -/
def fMat : Fmt (SparseMat F) :=
  .struct (.pair (.usize W.bits) (.pair (.usize W.bits) (.vec W.bits W.fEntry)))
    (fun (x, y, m) => ⟨x, y, m⟩) (fun m => (m.nx, m.ny, m.M))

/-- `R1CSInstance`, `r1csinstance.rs` l. 18–26. -/
def fR1CS : Fmt (R1CS F) :=
  .struct (.pair (.usize W.bits) (.pair (.usize W.bits) (.pair (.usize W.bits)
      (.pair W.fMat (.pair W.fMat W.fMat)))))
    (fun (c, v, i, a, b, m) => ⟨c, v, i, a, b, m⟩)
    (fun r => (r.numCons, r.numVars, r.numInputs, r.A, r.B, r.C))

/-- `Instance`, `lib.rs` l. 114–119.  The digest is read from the file. -/
def fInst : Fmt (Inst F) :=
  .struct (.pair W.fR1CS (.vec W.bits Fmt.u8)) (fun (r, d) => ⟨r, d⟩) (fun i => (i.inst, i.digest))

/-- `Assignment`, `lib.rs` l. 57–60. -/
def fAssignment : Fmt (List F) := W.fScalars

/-- `R1CSInstance::get_digest`, `r1csinstance.rs` l. 149–153.  `zlib` is the encoder of the flate2
crate. -/
def digest (zlib : List UInt8 → List UInt8) (r : R1CS F) : List UInt8 := zlib (W.fR1CS.enc r)

/-! ### The SNARK -/

/-- `CompressedUniPoly`, `unipoly.rs` l. 17–20. -/
def fUni : Fmt (CompressedUniPoly F) := .struct W.fScalars (fun c => ⟨c⟩) (fun p => p.coeffs)

/-- `LayerProofBatched`, `product_tree.rs` l. 134–139; its `proof` is a `SumcheckInstanceProof`,
`sumcheck.rs` l. 18–21. -/
def fLayerB : Fmt (LayerProofBatched F) :=
  .struct (.pair (.vec W.bits W.fUni) (.pair W.fScalars W.fScalars))
    (fun (p, l, r) => ⟨p, l, r⟩) (fun p => (p.proof, p.left, p.right))

/-- `ProductCircuitEvalProofBatched`, `product_tree.rs` l. 162–166. -/
def fProdB : Fmt (ProdProofBatched F) :=
  .struct (.pair (.vec W.bits W.fLayerB) (.pair W.fScalars (.pair W.fScalars W.fScalars)))
    (fun (p, l, r, w) => ⟨p, l, r, w⟩) (fun p => (p.proof, p.dotpL, p.dotpR, p.dotpW))

/-- `(Scalar, Vec<Scalar>, Vec<Scalar>, Scalar)`, `sparse_mlpoly.rs` l. 1026. -/
def fMemEvals : Fmt (MemEvals F) :=
  .struct (.pair W.fScalar (.pair W.fScalars (.pair W.fScalars W.fScalar)))
    (fun (i, r, w, a) => ⟨i, r, w, a⟩) (fun p => (p.init, p.read, p.write, p.audit))

/-- `ProductLayerProof`, `sparse_mlpoly.rs` l. 1024–1031. -/
def fProdLayer : Fmt (ProdLayerProof F) :=
  .struct (.pair W.fMemEvals (.pair W.fMemEvals (.pair (.pair W.fScalars W.fScalars)
      (.pair W.fProdB W.fProdB))))
    (fun (r, c, (l, ri), m, o) => ⟨r, c, l, ri, m, o⟩)
    (fun p => (p.row, p.col, (p.dotpL, p.dotpR), p.mem, p.ops))

/-- `(Vec<Scalar>, Vec<Scalar>, Scalar)`, `sparse_mlpoly.rs` l. 689. -/
def fAddrEvals : Fmt (AddrEvals F) :=
  .struct (.pair W.fScalars (.pair W.fScalars W.fScalar))
    (fun (a, r, t) => ⟨a, r, t⟩) (fun p => (p.addr, p.readTs, p.auditTs))

/-- `HashLayerProof`, `sparse_mlpoly.rs` l. 687–696. -/
def fHashLayer : Fmt (HashLayerProof F P) :=
  .struct (.pair W.fAddrEvals (.pair W.fAddrEvals (.pair W.fScalars (.pair (.pair W.fScalars W.fScalars)
      (.pair W.fDotLog (.pair W.fDotLog W.fDotLog))))))
    (fun (r, c, v, (dr, dc), o, m, d) => ⟨r, c, v, dr, dc, o, m, d⟩)
    (fun p => (p.row, p.col, p.val, (p.derefRow, p.derefCol), p.ops, p.mem, p.derefs))

/-- `PolyEvalNetworkProof`, `sparse_mlpoly.rs` l. 1314–1318. -/
def fNet : Fmt (NetProof F P) :=
  .struct (.pair W.fProdLayer W.fHashLayer) (fun (p, h) => ⟨p, h⟩) (fun p => (p.prod, p.hash))

/-- `SparseMatPolyEvalProof`, `sparse_mlpoly.rs` l. 1425–1429. -/
def fSparse : Fmt (SparseEvalProof F P) :=
  .struct (.pair W.fPoints W.fNet) (fun (d, n) => ⟨d, n⟩) (fun p => (p.derefs, p.net))

/-- `SNARK`, `lib.rs` l. 313–318, with `inst_evals : (Scalar, Scalar, Scalar)` and
`R1CSEvalProof`, `r1csinstance.rs` l. 319–322, which wraps the evaluation proof. -/
def fSNARK : Fmt (SNARK F P) :=
  .struct (.pair W.fR1CSProof (.pair (.pair W.fScalar (.pair W.fScalar W.fScalar)) W.fSparse))
    (fun (s, e, v) => ⟨s, e, v⟩) (fun p => (p.sat, p.evals, p.eval))

end Wire

/-- `bincode::deserialize(bytes)`: trailing bytes are allowed.
Called at `wasm.rs` l. 28, 59 and 60. -/
def Fmt.deserialize {α : Type} (f : Fmt α) (bs : List UInt8) : Except DFail α :=
  match f.dec bs with
  | .ok (x, _) => .ok x
  | .error e => .error e

/-- The `deserialize(..).unwrap()` of `wasm.rs`: an error and a panic are both a panic. -/
def Fmt.deserializeU {α : Type} (f : Fmt α) (bs : List UInt8) : Option α :=
  match f.deserialize bs with
  | .ok x => some x
  | .error _ => none

/-- The environment of the wasm interface with its actual encodings: `WasmEnv` with the bincode
formats.  `wasm.rs` l. 28, 54, 59, 60. -/
def Wire.wasmEnv {F G P : Type} (W : Wire F P) (env : Env F G P) (src : GenSrc G) (codec : Codec F) :
    WasmEnv F G P :=
  ⟨env, src, codec, W.fInst.deserializeU, W.fNIZK.deserializeU, W.fNIZK.enc⟩

end Spartan
