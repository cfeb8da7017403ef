import Verif.Model.TestCircuit
import Verif.Props.GenInst

/-!
The committed files of the repository's test circuit belong together: the circuit file is what the
command-line tool writes for the r1cs file, it states what the circom source states, the witness file
satisfies it, and the repository's own test passes whatever the randomness.
-/

namespace Spartan
open Spec MParams

namespace TestCircuit

/-- The header that circom writes for `test_circuit.circom`: six wires, one public output, three public
inputs, over the base field of secp256k1. -/
def head : Head := ⟨leBytes 32 secpP, 6, 1, 3, 0, 6⟩

/-- The two constraints in circom's form: `(-b₀) * b₁ = -b_prod` and `(-a) * b_prod = -c`, with wires
`1 = c`, `2 = a`, `3 = b₀`, `4 = b₁`, `5 = b_prod`. -/
def cons : List Con :=
  [⟨[(3, secpP - 1)], [(4, 1)], [(5, secpP - 1)]⟩, ⟨[(2, secpP - 1)], [(5, 1)], [(1, secpP - 1)]⟩]

/-- The sections, in the order in which circom writes them. -/
def secs : List (Nat × List UInt8) :=
  [(2, encCons cons), (1, encHead head 2), (3, encMap [0, 1, 2, 3, 4, 5])]

theorem r1cs_eq : encR1cs secs = r1csFile := by decide +kernel

theorem witness_eq : encWtns 2 (leBytes 32 secpP) (32 * 6) [1, 2, 1, 1, 2, 2] = witnessFile := by
  decide +kernel

theorem compiled : Compiled head cons [0, 1, 2, 3, 4, 5] secs where
  prime := leBytes_length _ _
  wires := by norm_num [head]
  pubOut := by norm_num [head]
  pubIn := by norm_num [head]
  prvIn := by norm_num [head]
  labels := by norm_num [head]
  cons := by norm_num [cons]
  terms := by
    have h : ∀ c ∈ cons, ∀ l ∈ [c.a, c.b, c.c], l.length < 2 ^ 32 ∧ ∀ t ∈ l, t.1 < 2 ^ 32 ∧ Readable t.2 := by
      decide +kernel
    intro c hc
    exact ⟨h c hc _ (by simp), h c hc _ (by simp), h c hc _ (by simp)⟩
  mapLen := rfl
  map64 := by decide
  map0 := rfl
  types := by simp [secs]
  nodup := by simp [secs]
  nsecs := by simp [secs]
  len := by rw [r1cs_eq]; decide +kernel
  sec1 := by simp [secs, cons]
  sec2 := by simp [secs]
  sec3 := by simp [secs]

theorem wires_lt : ∀ c ∈ cons, ∀ t ∈ c.a ++ c.b ++ c.c, t.1 < head.nWires ∧ t.2 < secpP := by
  decide +kernel

theorem fits : FitsWasm head cons 3 := by
  norm_num [FitsWasm, head, cons]

/-- What the circom source says of the six signals. -/
theorem cons_iff (w : List (ZMod secpP)) : ConsHold (fun n => (n : ZMod secpP)) cons w ↔
    w.getD 5 0 = w.getD 3 0 * w.getD 4 0 ∧ w.getD 1 0 = w.getD 2 0 * w.getD 5 0 := by
  have hm : ((secpP - 1 : Nat) : ZMod secpP) = -1 := by decide +kernel
  have h1 : ((1 : Nat) : ZMod secpP) = 1 := Nat.cast_one
  unfold ConsHold cons
  simp only [List.mem_cons, List.not_mem_nil, or_false, forall_eq_or_imp, forall_eq, evalLC, List.map_cons,
    List.map_nil, List.sum_cons, List.sum_nil, add_zero, hm, h1]
  constructor
  · rintro ⟨a, b⟩
    exact ⟨by linear_combination a, by linear_combination b⟩
  · rintro ⟨a, b⟩
    exact ⟨by linear_combination a, by linear_combination b⟩

/-- The last 74 bytes of the circuit file: the digest. -/
def digestBytes : List UInt8 := circuitFile.drop 440

def entries (l : List (Nat × Nat × ZMod secpP)) : List (Entry (ZMod secpP)) := l.map fun t => ⟨t.1, t.2.1, t.2.2⟩

/-- The instance in the circuit file. -/
def inst : R1CS (ZMod secpP) :=
  ⟨2, 8, 3, ⟨1, 4, entries [(0, 3, -1), (1, 2, -1)]⟩, ⟨1, 4, entries [(0, 4, 1), (1, 5, 1)]⟩,
    ⟨1, 4, entries [(0, 5, -1), (1, 1, -1)]⟩⟩

theorem circuit_eq : (secqWire 64).fInst.enc ⟨inst, digestBytes⟩ = circuitFile := by
  decide +kernel

/-- The instance that the tool builds from the constraints. -/
theorem built (digest : R1CS (ZMod secpP) → List UInt8) :
    instanceOf (secpCodec digest) cons 6 3 = .ok (.ok ⟨inst, digest inst⟩) := by
  have hA : convMat (secpCodec fun _ => []) 2 6 3 (triplesOf (cons.map fun c => termBytes c.a)) =
      [(0, 3, -1), (1, 2, -1)] := by decide +kernel
  have hB : convMat (secpCodec fun _ => []) 2 6 3 (triplesOf (cons.map fun c => termBytes c.b)) =
      [(0, 4, 1), (1, 5, 1)] := by decide +kernel
  have hC : convMat (secpCodec fun _ => []) 2 6 3 (triplesOf (cons.map fun c => termBytes c.c)) =
      [(0, 5, -1), (1, 1, -1)] := by decide +kernel
  have hn : (triplesOf (cons.map fun c => termBytes c.a) ++ triplesOf (cons.map fun c => termBytes c.b) ++
      triplesOf (cons.map fun c => termBytes c.c)).find?
        (fun e => ¬ EntryOk (secpCodec fun _ => []) 2 6 3 e) = none := by decide +kernel
  have hb : builtR1CS (secpCodec fun _ => []) 2 6 3 (triplesOf (cons.map fun c => termBytes c.a))
      (triplesOf (cons.map fun c => termBytes c.b)) (triplesOf (cons.map fun c => termBytes c.c)) = inst := by
    have h1 : consPadded 2 = 2 := by decide +kernel
    have h2 : varsPadded 6 3 = 8 := by decide +kernel
    have h3 : Nat.log2 2 = 1 := by decide +kernel
    have h4 : Nat.log2 8 = 3 := by decide +kernel
    unfold builtR1CS
    rw [hA, hB, hC, h1, h2, h3, h4]
    rfl
  have hb' : builtR1CS (secpCodec digest) 2 6 3 (triplesOf (cons.map fun c => termBytes c.a))
      (triplesOf (cons.map fun c => termBytes c.b)) (triplesOf (cons.map fun c => termBytes c.c)) = inst := hb
  have hn' : (triplesOf (cons.map fun c => termBytes c.a) ++ triplesOf (cons.map fun c => termBytes c.b) ++
      triplesOf (cons.map fun c => termBytes c.c)).find?
        (fun e => ¬ EntryOk (secpCodec digest) 2 6 3 e) = none := hn
  rw [instanceOf, instance_new_result, show cons.length = 2 from rfl, hn', hb']
  rfl

end TestCircuit

open TestCircuit

variable {digest : R1CS (ZMod secpP) → List UInt8}

/-- C114: for the committed r1cs file and three public inputs the tool writes the committed circuit file,
for every digest function that gives the committed digest on the instance of that file. -/
theorem test_circuit_generated (hd : digest inst = digestBytes) {files : String → Option (List UInt8)}
    (hfile : files "test_circuit.r1cs" = some r1csFile) :
    genSpartanInst (secqWire 64) (secpCodec digest) files
      ["gen_spartan_inst", "test_circuit.r1cs", "test_circuit.circuit", "3"] =
        .ok ("test_circuit.circuit", circuitFile) := by
  have e := gen_eq (W := secqWire 64) (K := secpCodec digest) (files := files) (numPub := 3)
    (args := ["gen_spartan_inst", "test_circuit.r1cs", "test_circuit.circuit", "3"])
    compiled rfl rfl rfl (by decide) (by rw [r1cs_eq]; exact hfile)
  rw [e, show head.nWires = 6 from rfl, built, hd]
  simp only [circuit_eq]

/-- The instance in the committed circuit file is what the wasm module reads from it. -/
theorem test_circuit_read : (secqWire 32).fInst.deserialize circuitFile = .ok ⟨inst, digestBytes⟩ := by
  have hdig : (secqWire 32).fits digestBytes := by
    have h : digestBytes.length = 74 := by decide +kernel
    revert h
    generalize digestBytes = d
    intro h
    show d.length < 2 ^ 32
    rw [h]; norm_num
  have hok : ∀ d, (secqWire 32).fits d → (secqWire 32).okInst ⟨inst, d⟩ := by
    intro d hd
    refine ⟨⟨?_, ?_, ?_, ?_, ?_, ?_⟩, ?_⟩
    · show 2 < 2 ^ 32; norm_num
    · show 8 < 2 ^ 32; norm_num
    · show 3 < 2 ^ 32; norm_num
    · refine ⟨by norm_num [inst, secqWire], by norm_num [inst, secqWire], ?_, ?_⟩
      · norm_num [inst, secqWire, Wire.fits, entries]
      · simp [inst, entries, secqWire, Wire.okEntry]
    · refine ⟨by norm_num [inst, secqWire], by norm_num [inst, secqWire], ?_, ?_⟩
      · norm_num [inst, secqWire, Wire.fits, entries]
      · simp [inst, entries, secqWire, Wire.okEntry]
    · refine ⟨by norm_num [inst, secqWire], by norm_num [inst, secqWire], ?_, ?_⟩
      · norm_num [inst, secqWire, Wire.fits, entries]
      · simp [inst, entries, secqWire, Wire.okEntry]
    · exact hd
  rw [← circuit_eq, inst_bytes_width 64 32]
  exact instance_bytes_roundtrip (secqWire_lawful (by norm_num) (by norm_num)) (hok _ hdig)

/-- C114: the circuit in the committed file is satisfied exactly by the signals with
`b_prod = b[0] * b[1]` and `c = a * b_prod`, whatever the public input. -/
theorem test_circuit_meaning (one c a b0 b1 bProd : ZMod secpP) {x : List (ZMod secpP)} (hx : x.length = 3) :
    ∃ I ok, (secqWire 32).fInst.deserialize circuitFile = .ok I ∧
      I.isSat [one, c, a, b0, b1, bProd] x = .ok (.ok ok) ∧
      (ok = true ↔ bProd = b0 * b1 ∧ c = a * bProd) := by
  obtain ⟨circuit, I, hg, hI, -, hsat⟩ := gen_sat_iff (digest := fun _ => digestBytes)
    (files := fun _ => some r1csFile) (args := ["gen_spartan_inst", "test_circuit.r1cs", "test_circuit.circuit", "3"])
    (fun _ => by decide +kernel) compiled wires_lt (numPub := 3) fits rfl rfl rfl (by decide) (by rw [r1cs_eq])
  rw [test_circuit_generated (digest := fun _ => digestBytes) (files := fun _ => some r1csFile) rfl rfl] at hg
  cases hg
  obtain ⟨ok, h1, h2⟩ := hsat [one, c, a, b0, b1, bProd] x rfl hx
  exact ⟨I, ok, hI, h1, h2.trans (cons_iff _)⟩

/-- C114: the committed witness file holds `1, c = 2, a = 1, b = [1, 2], b_prod = 2`, and these satisfy the
circuit. -/
theorem test_witness :
    witnessFile = encWtns 2 (leBytes 32 secpP) (32 * 6) [1, 2, 1, 1, 2, 2] ∧
    ConsHold (fun n => (n : ZMod secpP)) cons ([1, 2, 1, 1, 2, 2].map fun w : Nat => (w : ZMod secpP)) := by
  refine ⟨witness_eq.symm, (cons_iff _).2 ⟨?_, ?_⟩⟩ <;> decide +kernel

/-- C114: proving with the committed circuit and witness files and verifying with the committed circuit
file succeeds, for every randomness, every three canonical public inputs and every challenge function
without a zero folding challenge. -/
theorem test_prove_verify {sqrt : ZMod secpN → Option (ZMod secpN)} (hs : SqrtSpec sqrt)
    {hash : Tr (ZMod secpP) EncPt → ZMod secpP} (hu : ∀ t, hash (t ++ [.chal "u"]) ≠ 0) {src : GenSrc Secq}
    {pub : List UInt8} (hlen : 96 ≤ pub.length) (hcanon : ∀ b ∈ chunks pub 3, leNat b < secpP)
    (label : List UInt8) (tr0 : Tr (ZMod secpP) EncPt) (tape : Tape (ZMod secpP)) :
    ∃ proof, wasmProve ((secqWire 32).wasmEnv (secqEnvE sqrt hash) src (secpCodec digest)) label tr0 tape
        circuitFile witnessFile pub = .ok proof ∧
      wasmVerify ((secqWire 32).wasmEnv (secqEnvE sqrt hash) src (secpCodec digest)) label tr0
        circuitFile proof pub = .ok true := by
  obtain ⟨circuit, hg, hall⟩ := gen_prove_verify hs hu (src := src) (digest := fun _ => digestBytes)
    (files := fun _ => some r1csFile) (args := ["gen_spartan_inst", "test_circuit.r1cs", "test_circuit.circuit", "3"])
    (fun _ => by decide +kernel) compiled (by simp [cons]) wires_lt (numPub := 3) fits rfl rfl rfl (by decide)
    (by rw [r1cs_eq])
  rw [test_circuit_generated (digest := fun _ => digestBytes) (files := fun _ => some r1csFile) rfl rfl] at hg
  cases hg
  have := hall pub hlen hcanon 2 (leBytes 32 secpP) [1, 2, 1, 1, 2, 2] (le_refl 2) (leBytes_length _ _) rfl
    (by norm_num) (by decide +kernel) test_witness.2 label tr0 tape
  rw [show 32 * [1, 2, 1, 1, 2, 2].length = 32 * 6 from rfl, witness_eq] at this
  generalize circuitFile = c at this ⊢
  generalize witnessFile = w at this ⊢
  have hK : ∀ l, assignmentU (secpCodec digest) l = assignmentU (secpCodec fun _ => digestBytes) l := by
    have h : ∀ l, assignmentNew (secpCodec digest) l = assignmentNew (secpCodec fun _ => digestBytes) l := by
      intro l
      induction l with
      | nil => rfl
      | cons v vs ih =>
        rw [assignmentNew, assignmentNew, ih]
        rfl
    intro l
    rw [assignmentU, assignmentU, h]
  obtain ⟨proof, h1, h2⟩ := this
  refine ⟨proof, ?_, ?_⟩
  · rw [← h1]
    unfold wasmProve Wire.wasmEnv
    simp only [hK]
  · rw [← h2]
    unfold wasmVerify Wire.wasmEnv
    simp only [hK]

/-- The public inputs of the repository's test `check_nizk`: three times one, in the big-endian form of
`Scalar::to_repr` (`secq256k1/src/scalar.rs` l. 82–84).  `wasm.rs` l. 174–178. -/
def testInputs : List UInt8 := (List.replicate 3 (List.replicate 31 0 ++ [1])).flatten

/-- C114: the repository's test passes for every randomness, although its public inputs — three equal
values — are not the values `1, 1, 2` of the public signals `a`, `b[0]`, `b[1]` in the witness: converted
circuits ignore their public input (C62). -/
theorem check_nizk_passes {sqrt : ZMod secpN → Option (ZMod secpN)} (hs : SqrtSpec sqrt)
    {hash : Tr (ZMod secpP) EncPt → ZMod secpP} (hu : ∀ t, hash (t ++ [.chal "u"]) ≠ 0) {src : GenSrc Secq}
    (label : List UInt8) (tr0 : Tr (ZMod secpP) EncPt) (tape : Tape (ZMod secpP)) :
    (∃ proof, wasmProve ((secqWire 32).wasmEnv (secqEnvE sqrt hash) src (secpCodec digest)) label tr0 tape
        circuitFile witnessFile testInputs = .ok proof ∧
      wasmVerify ((secqWire 32).wasmEnv (secqEnvE sqrt hash) src (secpCodec digest)) label tr0
        circuitFile proof testInputs = .ok true) ∧
    (chunks testInputs 3).map leNat ≠ [1, 1, 2] ∧
    (chunks testInputs 3).map (fun b => leNat b.reverse) ≠ [1, 1, 2] := by
  refine ⟨test_prove_verify hs hu (by decide +kernel) ?_ label tr0 tape, by decide +kernel, by decide +kernel⟩
  decide +kernel

/-- Non-vacuity: a digest function as in `test_circuit_generated`, and signals on both sides of
`test_circuit_meaning`. -/
example : (∃ digest : R1CS (ZMod secpP) → List UInt8, digest inst = digestBytes) ∧
    ((6 : ZMod secpP) = 2 * 3 ∧ (30 : ZMod secpP) = 5 * 6) ∧ ¬ ((7 : ZMod secpP) = 2 * 3) :=
  ⟨⟨fun _ => digestBytes, rfl⟩, by decide +kernel, by decide +kernel⟩

end Spartan
