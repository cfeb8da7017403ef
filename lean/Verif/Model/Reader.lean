import Verif.Model.R1CS
import Verif.Model.Group

/-!
The readers of circom files (`packages/circuit_reader/src/circom_reader.rs`, `lib.rs`) and the wasm
interface (`packages/spartan_wasm/src/wasm.rs`).

A reader is a function of the whole file and the current position.  `u32` and `u64` values are
natural numbers; wrap-around is written out where it can happen.  Capacity hints
(`Vec::with_capacity`) are not modelled.
-/

namespace Spartan

/-- How a reading function fails: an `io::Error` is returned, or the program panics.
`circom_reader.rs` l. 54 turns the error into a panic, `wasm.rs` l. 21 too. -/
inductive RdFail
  | io
  | panic
  deriving DecidableEq, Repr

/-- The `Result<_, Error>` of `circom_reader.rs` l. 69–215 and `wasm.rs` l. 100–161. -/
abbrev Rd (α : Type) := Except RdFail α

/-- A reading function: file, position ↦ value and new position.
The arguments `reader: R` of `circom_reader.rs` l. 69–215. -/
abbrev Reader (α : Type) := List UInt8 → Nat → Rd (α × Nat)

/-- `Read::read_exact` of `n` bytes: an error when the file is too short.
Called at `circom_reader.rs` l. 82, 152 and `wasm.rs` l. 114, 142. -/
def readBytes (n : Nat) : Reader (List UInt8) := fun f p =>
  if p + n ≤ f.length then .ok ((f.drop p).take n, p + n) else .error .io

/-- `read_u32::<LittleEndian>` and `read_u64::<LittleEndian>` (4 and 8 bytes).
Called at `circom_reader.rs` l. 80–107, 139, 158–172 and `wasm.rs` l. 119–152. -/
def readLE (n : Nat) : Reader Nat := fun f p =>
  match readBytes n f p with
  | .ok (bs, p) => .ok (leNat bs, p)
  | .error e => .error e

/-- `Scalar::from_repr`, `secq256k1/src/scalar.rs` l. 78–80: `ScalarCore::from_be_bytes`.  The values
of this scalar type are the integers below `ORDER`. -/
def coreFromRepr (bs : List UInt8) : Option Nat :=
  if bs.length = 32 ∧ leNat bs.reverse < secqOrder then some (leNat bs.reverse) else none

/-- `Scalar::to_repr`, `secq256k1/src/scalar.rs` l. 82–84: `ScalarCore::to_be_bytes`. -/
def coreToRepr (x : Nat) : List UInt8 := beBytes32 x

/-- `read_field`, `circom_reader.rs` l. 69–77, `wasm.rs` l. 100–108: 32 bytes in file order, then
`from_repr(..).unwrap()`. -/
def readField : Reader Nat := fun f p =>
  match readBytes 32 f p with
  | .error e => .error e
  | .ok (bs, p) =>
    match coreFromRepr bs with
    | some x => .ok (x, p)
    | none => .error .panic

/-- `n` reads in sequence (the `for _ in 0..n` loops).
`circom_reader.rs` l. 105–110, 120–126, 138–140, `wasm.rs` l. 157–159. -/
def readMany {α : Type} (rd : Reader α) : Nat → Reader (List α)
  | 0, _, p => .ok ([], p)
  | n + 1, f, p =>
    match rd f p with
    | .error e => .error e
    | .ok (x, p) =>
      match readMany rd n f p with
      | .error e => .error e
      | .ok (xs, p) => .ok (x :: xs, p)

/-- `Header`, `circom_reader.rs` l. 22–32. -/
structure R1csHeader where
  fieldSize : Nat
  prime : List UInt8
  nWires : Nat
  nPubOut : Nat
  nPubIn : Nat
  nPrvIn : Nat
  nLabels : Nat
  nConstraints : Nat
  deriving DecidableEq, Repr

/-- `read_header`, `circom_reader.rs` l. 79–100. -/
def readHeader (size : Nat) : Reader R1csHeader := fun f p => do
  let (fieldSize, p) ← readLE 4 f p
  let (prime, p) ← readBytes fieldSize f p
  if size ≠ 32 + fieldSize then .error .io else
  let (nWires, p) ← readLE 4 f p
  let (nPubOut, p) ← readLE 4 f p
  let (nPubIn, p) ← readLE 4 f p
  let (nPrvIn, p) ← readLE 4 f p
  let (nLabels, p) ← readLE 8 f p
  let (nConstraints, p) ← readLE 4 f p
  pure (⟨fieldSize, prime, nWires, nPubOut, nPubIn, nPrvIn, nLabels, nConstraints⟩, p)

/-- One term of a linear combination, `circom_reader.rs` l. 106–109. -/
def readTerm : Reader (Nat × Nat) := fun f p => do
  let (w, p) ← readLE 4 f p
  let (c, p) ← readField f p
  pure ((w, c), p)

/-- `read_constraint_vec`, `circom_reader.rs` l. 102–112. -/
def readConstraintVec : Reader (List (Nat × Nat)) := fun f p => do
  let (n, p) ← readLE 4 f p
  readMany readTerm n f p

/-- The three linear combinations of a constraint: wire and coefficient pairs (l. 11). -/
abbrev CircomConstraint := List (Nat × Nat) × List (Nat × Nat) × List (Nat × Nat)

/-- One constraint, `circom_reader.rs` l. 121–125. -/
def readConstraint : Reader CircomConstraint := fun f p => do
  let (a, p) ← readConstraintVec f p
  let (b, p) ← readConstraintVec f p
  let (c, p) ← readConstraintVec f p
  pure ((a, b, c), p)

/-- `read_map`, `circom_reader.rs` l. 130–148; `vec[0]` panics on an empty vector. -/
def readMap (size : Nat) (h : R1csHeader) : Reader (List Nat) := fun f p =>
  if size ≠ h.nWires * 8 then .error .io else do
  let (v, p) ← readMany (readLE 8) h.nWires f p
  match v with
  | [] => .error .panic
  | x :: _ => if x ≠ 0 then .error .io else pure (v, p)

/-- `seek(SeekFrom::Current(size as i64))`: sizes from `2^63` on are negative; a negative position,
or one that does not fit an `i64`, is an error.  `circom_reader.rs` l. 176. -/
def seekCur (p size : Nat) : Rd Nat :=
  let q : Int := if size < 2 ^ 63 then (p : Int) + size else (p : Int) + size - 2 ^ 64
  if q < 0 ∨ 2 ^ 63 ≤ q then .error .io else .ok q.toNat

/-- The loop over the sections, `circom_reader.rs` l. 170–177.  The two hash maps are one list of
(type, offset, size), newest first, so that a later section of the same type replaces an earlier
one. -/
def readSections : Nat → List (Nat × Nat × Nat) → Reader (List (Nat × Nat × Nat))
  | 0, acc, _, p => .ok (acc, p)
  | n + 1, acc, f, p =>
    match readLE 4 f p with
    | .error e => .error e
    | .ok (ty, p) =>
      match readLE 8 f p with
      | .error e => .error e
      | .ok (size, p) =>
        match seekCur p size with
        | .error e => .error e
        | .ok q => readSections n ((ty, p, size) :: acc) f q

/-- `section_offsets.get(&ty).unwrap()` and `section_sizes.get(&ty).unwrap()`.
`circom_reader.rs` l. 183–205. -/
def findSection (ty : Nat) (secs : List (Nat × Nat × Nat)) : Rd (Nat × Nat) :=
  match secs.find? (fun s => s.1 == ty) with
  | some s => .ok s.2
  | none => .error .panic

/-- `R1CSFile`, `circom_reader.rs` l. 35–41, without the version (always 1). -/
structure R1csFile where
  header : R1csHeader
  constraints : List CircomConstraint
  wireMap : List Nat
  deriving DecidableEq, Repr

/-- `from_reader`, `circom_reader.rs` l. 150–215. -/
def fromReader (f : List UInt8) : Rd R1csFile := do
  let (magic, p) ← readBytes 4 f 0
  if magic ≠ [0x72, 0x31, 0x63, 0x73] then .error .io else
  let (version, p) ← readLE 4 f p
  if version ≠ 1 then .error .io else
  let (numSections, p) ← readLE 4 f p
  let (secs, _) ← readSections numSections [] f p
  let (hOff, hSize) ← findSection 1 secs
  let (header, _) ← readHeader hSize f hOff
  if header.fieldSize ≠ 32 then .error .io else
  let (cOff, _) ← findSection 2 secs
  let (constraints, _) ← readMany readConstraint header.nConstraints f cOff
  let (mOff, mSize) ← findSection 3 secs
  let (wireMap, _) ← readMap mSize header f mOff
  pure ⟨header, constraints, wireMap⟩

/-- `R1CS` of `circom_reader.rs` l. 13–19. -/
structure CircomR1CS where
  numInputs : Nat
  numAux : Nat
  numVariables : Nat
  constraints : List CircomConstraint
  deriving DecidableEq, Repr

/-- `load_r1cs_from_bin`, `circom_reader.rs` l. 53–67: an `io::Error` becomes a panic.  The `u32` sum
and the `usize` difference wrap around, as in a release build (a debug build panics). -/
def loadR1cs (f : List UInt8) : Out (CircomR1CS × List Nat) :=
  match fromReader f with
  | .error _ => .error .panic
  | .ok file =>
    let numInputs := (1 + file.header.nPubIn + file.header.nPubOut) % 2 ^ 32
    let numVariables := file.header.nWires
    .ok (⟨numInputs, (numVariables + 2 ^ 64 - numInputs) % 2 ^ 64, numVariables, file.constraints⟩,
      file.wireMap)

/-! ### circuit_reader/src/lib.rs -/

/-- The triples pushed for one of the three matrices, `lib.rs` l. 28–46. -/
def matTriples (sel : CircomConstraint → List (Nat × Nat)) (cs : List CircomConstraint) :
    List (Nat × Nat × List UInt8) :=
  (cs.mapIdx fun i c => (sel c).map fun t => (i, t.1, coreToRepr t.2)).flatten

/-- `convert_to_spartan_r1cs`, `lib.rs` l. 16–59: `Instance::new(..).unwrap()`. -/
def convertToSpartan {F : Type} [Field F] (K : Codec F) (r : CircomR1CS) (numPub : Nat) :
    Out (Inst F) :=
  match Inst.new K r.constraints.length r.numVariables numPub
      (matTriples (·.1) r.constraints) (matTriples (·.2.1) r.constraints)
      (matTriples (·.2.2) r.constraints) with
  | .ok (.ok I) => .ok I
  | .ok (.error _) => .error .panic
  | .error e => .error e

/-- `load_as_spartan_inst`, `lib.rs` l. 10–14, on the contents of the file. -/
def loadAsSpartanInst {F : Type} [Field F] (K : Codec F) (f : List UInt8) (numPub : Nat) :
    Out (Inst F) := do
  let (r, _) ← loadR1cs f
  convertToSpartan K r numPub

/-! ### wasm.rs -/

/-- `load_witness_from_bin_reader`, `wasm.rs` l. 110–161.  `witness_len * field_size` is a `u32`
product that wraps around (wasm is built in release mode). -/
def loadWitness (f : List UInt8) : Rd (List Nat) := do
  let (magic, p) ← readBytes 4 f 0
  if magic ≠ [119, 116, 110, 115] then .error .panic else
  let (version, p) ← readLE 4 f p
  if version > 2 then .error .panic else
  let (numSections, p) ← readLE 4 f p
  if numSections ≠ 2 then .error .panic else
  let (secType, p) ← readLE 4 f p
  if secType ≠ 1 then .error .panic else
  let (secSize, p) ← readLE 8 f p
  if secSize ≠ 4 + 32 + 4 then .error .panic else
  let (fieldSize, p) ← readLE 4 f p
  if fieldSize ≠ 32 then .error .panic else
  let (_, p) ← readBytes fieldSize f p
  let (witnessLen, p) ← readLE 4 f p
  let (secType, p) ← readLE 4 f p
  if secType ≠ 2 then .error .panic else
  let (secSize, p) ← readLE 8 f p
  if secSize ≠ witnessLen * fieldSize % 2 ^ 32 then .error .panic else
  let (ws, _) ← readMany readField witnessLen f p
  pure ws

/-- The public input slices `[(i * 32)..((i + 1) * 32)]`, `wasm.rs` l. 37–40 and 69–72: slicing past
the end panics. -/
def inputSlices (bytes : List UInt8) (n : Nat) : Out (List (List UInt8)) :=
  if n * 32 ≤ bytes.length then
    .ok ((List.range n).map fun i => (bytes.drop (i * 32)).take 32)
  else .error .panic

/-- `Assignment::new(..).unwrap()`.  `wasm.rs` l. 27, 41, 74. -/
def assignmentU {F : Type} [Field F] (K : Codec F) (bs : List (List UInt8)) : Out (List F) :=
  match assignmentNew K bs with
  | .ok xs => .ok xs
  | .error _ => .error .panic

/-- What the wasm functions use from outside: bincode's (de)serialization and the constant
initial transcript.  `wasm.rs` l. 28, 35, 54, 59, 60, 67. -/
structure WasmEnv (F G P : Type) where
  env : Env F G P
  src : GenSrc G
  codec : Codec F
  decInst : List UInt8 → Option (Inst F)
  decProof : List UInt8 → Option (NIZK F P)
  encProof : NIZK F P → List UInt8

variable {F G P : Type} [Field F] [AddCommGroup G] [Module F G]
  [DecidableEq F] [DecidableEq P] [DecidableEq G]

/-- `prove`, `wasm.rs` l. 19–55.  `tr0` is `Transcript::new(b"nizk_example")`; `label` is the
generator label of `NIZKGens::new`. -/
def wasmProve (W : WasmEnv F G P) (label : List UInt8) (tr0 : Tr F P) (tape : Tape F)
    (circuit vars publicInputs : List UInt8) : Out (List UInt8) :=
  match loadWitness vars with
  | .error _ => .error .panic
  | .ok ws => do
    let assignment ← assignmentU W.codec (ws.map coreToRepr)
    match W.decInst circuit with
    | none => .error .panic
    | some I => do
      let gens ← NIZKGens.new W.src label I.inst.numVars I.inst.numInputs
      let slices ← inputSlices publicInputs I.inst.numInputs
      let input ← assignmentU W.codec slices
      let (pf, _) ← NIZK.prove W.env I assignment input gens tr0 tape
      pure (W.encProof pf)

/-- `verify`, `wasm.rs` l. 57–83: `.is_ok()` turns an error into `false`; a panic stays one. -/
def wasmVerify (W : WasmEnv F G P) (label : List UInt8) (tr0 : Tr F P)
    (circuit proof publicInput : List UInt8) : Out Bool :=
  match W.decInst circuit with
  | none => .error .panic
  | some I =>
    match W.decProof proof with
    | none => .error .panic
    | some pf => do
      let gens ← NIZKGens.new W.src label I.inst.numVars I.inst.numInputs
      let slices ← inputSlices publicInput I.inst.numInputs
      let inputs ← assignmentU W.codec slices
      match NIZK.verify W.env pf I inputs gens tr0 with
      | .ok _ => pure true
      | .error (.err _) => pure false
      | .error .panic => .error .panic

end Spartan
