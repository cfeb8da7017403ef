import Verif.Model.CoreScalar
import Verif.Model.SparseProof
import Verif.Lemmas.CurveOrder
import Mathlib.Data.Int.GCD

/-!
The programs shipped with the proof system: `examples/cubic.rs`, `profiler/{snark,nizk}.rs`,
`benches/{snark,nizk}.rs` and `src/bin/mont_params.rs` of `packages/Spartan-secq`.

Printing, timing and compressing the proof for the size report are left out.
-/

namespace Spartan

/-- `Scalar::from_bytes` of `scalar.rs` on a `[u8; 32]`, with the residue its canonical encoding shows;
the digest function of the instance stays a parameter. -/
def scalarCodec (digest : R1CS (ZMod secpP) → List UInt8) : Codec (ZMod secpP) where
  fromBytes bs := if bs.length = 32 then
    (paramsP.fromBytes bs).map fun a => (leNat (paramsP.toBytes a) : ZMod secpP) else none
  digest := digest

/-- `Result::unwrap`.  For example cubic.rs:73, 89, 94, 98. -/
def unwrapR {α ε : Type} : Except ε α → Out α
  | .ok a => .ok a
  | .error _ => .error .panic

namespace Programs

/-- The bytes of `1` and `5` that the example pushes (cubic.rs:40, 69): `Scalar::ONE.to_bytes()` and
`Scalar::from(5u32).to_bytes()`. -/
def oneB : List UInt8 := CoreScalar.toBytes 1
/-- cubic.rs:69. -/
def fiveB : List UInt8 := CoreScalar.toBytes (CoreScalar.fromU64 5)

/-- Matrices of the example, cubic.rs:47-72 (`num_vars = 4`). -/
def cubicA : List (Nat × Nat × List UInt8) :=
  [(0, 0, oneB), (1, 1, oneB), (2, 2, oneB), (2, 0, oneB), (3, 3, oneB), (3, 4, fiveB)]
/-- cubic.rs:47-72. -/
def cubicB : List (Nat × Nat × List UInt8) :=
  [(0, 0, oneB), (1, 0, oneB), (2, 4, oneB), (3, 4, oneB)]
/-- cubic.rs:47-72. -/
def cubicC : List (Nat × Nat × List UInt8) :=
  [(0, 1, oneB), (1, 2, oneB), (2, 3, oneB), (3, 4 + 1, oneB)]

/-- `produce_r1cs` (cubic.rs:19-108) with the value `z0` that `Scalar::random` returned. -/
def cubicR1CS (K : Codec (ZMod secpP)) (z0 : Nat) :
    Out (Inst (ZMod secpP) × List (ZMod secpP) × List (ZMod secpP)) := do
  let inst ← unwrapR (← Inst.new K 4 4 1 cubicA cubicB cubicC)
  let z1 ← CoreScalar.mul z0 z0
  let z2 ← CoreScalar.mul z1 z0
  let z3 := CoreScalar.add z2 z0
  let i0 := CoreScalar.add z3 (CoreScalar.fromU64 5)
  let vars ← unwrapR (assignmentNew K [CoreScalar.toBytes z0, CoreScalar.toBytes z1,
    CoreScalar.toBytes z2, CoreScalar.toBytes z3])
  let inputs ← unwrapR (assignmentNew K [CoreScalar.toBytes i0])
  let res ← inst.isSat vars inputs
  check ((← unwrapR res) = true)
  pure (inst, vars, inputs)

variable {F G P : Type} [Field F] [AddCommGroup G] [Module F G]
  [DecidableEq F] [DecidableEq P] [DecidableEq G]

/-- `Transcript::new(label)` (Merlin): the label is the first message.  For example `wasm.rs` l. 43. -/
def newTr (label : String) : Tr F P := [.bytes "dom-sep" label]

/-- The common tail of `main` in cubic.rs:110-147, `main` in profiler/snark.rs and the verify benchmark
in benches/snark.rs: generators, encoding, proof, verification; `assert!(… .is_ok())`.  The labels are
those of `SNARKGens::new` (lib.rs:300-305). -/
def snarkRun (E : Env F G P) (S : GenSrc G) (label : String) (nc nv ni nz : Nat) (I : Inst F)
    (vars inputs : List F) (tape : Tape F) : Out Unit := do
  let gens ← SNARKGens.new S "gens_r1cs_sat".toUTF8.toList "gens_r1cs_eval".toUTF8.toList nc nv ni nz
  let (comm, decomm) ← SNARK.encode E I gens
  let (pf, _) ← SNARK.prove E I comm decomm vars inputs gens (newTr label) tape
  let _ ← SNARK.verify E pf comm inputs gens (newTr label)
  pure ()

/-- The same for NIZK: profiler/nizk.rs and benches/nizk.rs. -/
def nizkRun (E : Env F G P) (S : GenSrc G) (label : String) (nv ni : Nat) (I : Inst F)
    (vars inputs : List F) (tape : Tape F) : Out Unit := do
  let gens ← NIZKGens.new S "gens_r1cs_sat".toUTF8.toList nv ni
  let (pf, _) ← NIZK.prove E I vars inputs gens (newTr label) tape
  let _ ← NIZK.verify E pf I inputs gens (newTr label)
  pure ()

/-- `main` of cubic.rs:110-147; `num_non_zero_entries = 8`. -/
def cubicMain {H : Type} [AddCommGroup H] [Module (ZMod secpP) H] [DecidableEq H] (K : Codec (ZMod secpP))
    (E : Env (ZMod secpP) H P) (S : GenSrc H) (z0 : Nat) (tape : Tape (ZMod secpP)) : Out Unit := do
  let (I, vars, inputs) ← cubicR1CS K z0
  snarkRun E S "snark_example" 4 4 1 8 I vars inputs tape

/-- `Instance::produce_synthetic_r1cs` (lib.rs:264-276). -/
def syntheticInst (K : Codec F) (rnd : Tape F) (nc nv ni : Nat) : Out (Inst F × List F × List F) := do
  let (I, vars, inputs) ← R1CS.synthetic rnd nc nv ni
  pure (⟨I, K.digest I⟩, vars, inputs)

/-- One turn of the loop of profiler/snark.rs:24-60 for the size `s`. -/
def snarkProfile (K : Codec F) (E : Env F G P) (S : GenSrc G) (rnd tape : Tape F) (s : Nat) : Out Unit := do
  let (I, vars, inputs) ← syntheticInst K rnd (2 ^ s) (2 ^ s) 10
  snarkRun E S "snark_example" (2 ^ s) (2 ^ s) 10 (2 ^ s) I vars inputs tape

/-- One turn of the loop of profiler/nizk.rs:24-50 for the size `s`. -/
def nizkProfile (K : Codec F) (E : Env F G P) (S : GenSrc G) (rnd tape : Tape F) (s : Nat) : Out Unit := do
  let (I, vars, inputs) ← syntheticInst K rnd (2 ^ s) (2 ^ s) 10
  nizkRun E S "nizk_example" (2 ^ s) 10 I vars inputs tape

/-- `main` of profiler/snark.rs: the sizes 10 to 20, each with its own draws. -/
def snarkProfiler (K : Codec F) (E : Env F G P) (S : GenSrc G) (rnd tape : Nat → Tape F) : Out Unit :=
  [10, 11, 12, 13, 14, 15, 16, 17, 18, 19, 20].forM fun s => snarkProfile K E S (rnd s) (tape s) s

/-- `main` of profiler/nizk.rs. -/
def nizkProfiler (K : Codec F) (E : Env F G P) (S : GenSrc G) (rnd tape : Nat → Tape F) : Out Unit :=
  [10, 11, 12, 13, 14, 15, 16, 17, 18, 19, 20].forM fun s => nizkProfile K E S (rnd s) (tape s) s

/-! ### mont_params.rs -/

/-- `get_words` (mont_params.rs:6-13); the fifth limb, absent in the program's output, is zero. -/
def getWords (n : Nat) : Limbs :=
  let w := fun i => UInt64.ofNat ((n >>> (64 * i)) % 2 ^ 64)
  ⟨w 0, w 1, w 2, w 3, 0⟩

/-- `mod_inverse(..).unwrap()` of num-bigint (external), by the extended Euclidean algorithm.
Called at `mont_params.rs` l. 42–45. -/
def modInverse (a n : Nat) : Out Nat :=
  if Nat.gcd a n = 1 then .ok ((Nat.gcdA a n) % (n : Int)).toNat else .error .panic

/-- `main` of mont_params.rs:22-54 with the modulus as a parameter: the five printed constants (of the
words of `INV` only the first can be non-zero). -/
def montParams (m : Nat) : Out MParams := do
  let i ← modInverse m (2 ^ 64)
  let inv := ((-(i : Int)) % (2 ^ 64 : Int)).toNat
  pure ⟨getWords m, (getWords inv).l0, getWords (2 ^ 256 % m), getWords (2 ^ 512 % m), getWords (2 ^ 768 % m)⟩

end Programs

end Spartan
