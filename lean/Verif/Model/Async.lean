import Verif.Model.Prover
import Mathlib.Logic.Function.Basic

/-!
The library under concurrency: `MembershipVerifier.verify` (`core/verifier.ts`), `MembershipProver.prove`
(`core/prover.ts`) and `init` (`wasm/index.ts`, with `initSync` of `wasm/wasm.js`) as asynchronous functions.
JavaScript runs one piece of code at a time, from one `await` to the next; between two pieces any other call,
and the program that uses the library, may run.  The byte arrays handed to the library are objects shared
with that program.

Simplified: the functions of the WebAssembly module are pure functions of their arguments once the module is
there (this is C109), the randomness of a proof is a number that is used once, and the integers and arrays of
a Merkle proof are not changed by the program during a call.
-/

namespace Spartan.Async

abbrev Bytes := List UInt8

/-- What the library calls.  `verifier.ts` l. 59, `prover.ts` l. 75 and 92. -/
structure Sys where
  /-- `wasm.verify(circuit, proof, publicInput)` -/
  wasmVerify : Bytes → Bytes → Bytes → Out Bool
  /-- `wasm.prove(circuit, witness, publicInput)`, with the randomness first -/
  wasmProve : Nat → Bytes → Bytes → Bytes → Out Bytes
  /-- `snarkJsWitnessGen(input, wasmFile)`, with the file first; `none`: it throws -/
  witnessGen : String → Lib.WitnessInput → Option Bytes

/-- What `prove` returns: the public input refers to the caller's array `msgHash`.
`prover.ts` l. 66 and 95–98, `publicInputs.ts` l. 72–82. -/
structure Proved where
  proof : Bytes
  r : Nat
  rV : Nat
  msgHash : Nat
  circuitPubInput : Lib.CircuitPubInput

/-- Where a call stands.  In a result, `none` is a rejected promise. -/
inductive Call where
  /-- `verify` is waiting for the answer of the server, `verifier.ts` l. 48 with `utils.ts` l. 37–43 -/
  | verifyFetch (path : String) (proof pub : Nat)
  /-- `verify` has its circuit but has not gone on, `verifier.ts` l. 48; `none`: loading threw -/
  | verifyLoaded (circuit : Option Bytes) (proof pub : Nat)
  /-- `verify` is waiting for the result of `wasm.verify`, `verifier.ts` l. 59 -/
  | verifyRet (r : Option Bool)
  | verifyDone (r : Option Bool)
  /-- `prove` is waiting for the witness, `prover.ts` l. 75; `input` is the generator's, then the rest -/
  | proveWitness (gen path : String) (remote : Bool) (input : Lib.WitnessInput) (r v msgHash : Nat)
      (pub : Lib.CircuitPubInput)
  /-- `prove` is waiting for the answer of the server, `prover.ts` l. 84 -/
  | proveFetch (path : String) (witness : Bytes) (r v msgHash : Nat) (pub : Lib.CircuitPubInput)
  /-- `prove` has its circuit but has not gone on, `prover.ts` l. 84 -/
  | proveLoaded (circuit : Option Bytes) (witness : Bytes) (r v msgHash : Nat) (pub : Lib.CircuitPubInput)
  | proveDone (r : Option Proved)
  /-- `initSync` is waiting for `WebAssembly.compile`, `wasm.js` l. 424–426 -/
  | initCompile
  /-- `initSync` is waiting for `WebAssembly.instantiate`, `wasm.js` l. 426 -/
  | initInstantiate
  /-- `init` has not yet gone on after `initSync`, `wasm/index.ts` l. 6 -/
  | initHook
  | initDone

/-- The state shared by the calls: whether the module is there (`wasm` in `wasm.js` l. 1), the files or the
servers' contents, the byte arrays of the program, and the random numbers used so far; and the calls made. -/
structure World where
  ready : Bool
  files : String → Option Bytes
  mem : Nat → Bytes
  seed : Nat
  calls : List Call

/-- What can happen next: a call, the continuation of a call, or an action of the program or of the server. -/
inductive Act where
  | verify (remote : Bool) (path : String) (proof pub : Nat)
  | prove (gen path : String) (remote : Bool) (sig : Bytes) (msgHash : Nat) (merkleProof : Lib.MerkleProof)
  | init
  | resume (k : Nat)
  | write (a : Nat) (bs : Bytes)
  | setFile (path : String) (bs : Option Bytes)

/-- `loadCircuit` up to its first `await`, `utils.ts` l. 21–43: a local file is read at once. -/
def loadCircuit (w : World) (remote : Bool) (path : String) (fetch : Call) (loaded : Option Bytes → Call) : Call :=
  if remote then fetch else loaded (w.files path)

/-- `wasm.verify`: without a module `wasm.__wbindgen_add_to_stack_pointer` is a `TypeError`, which the caller
treats like a panic.  `wasm.js` l. 114–116. -/
def callVerify (S : Sys) (w : World) (circuit proof pub : Bytes) : Out Bool :=
  if w.ready then S.wasmVerify circuit proof pub else .error .panic

/-- `wasm.prove`, `wasm.js` l. 83–85, likewise. -/
def callProve (S : Sys) (w : World) (circuit witness pub : Bytes) : Out Bytes :=
  if w.ready then S.wasmProve w.seed circuit witness pub else .error .panic

/-- `MembershipVerifier.verify` after the circuit is loaded, `verifier.ts` l. 49–67: the arrays are read now. -/
noncomputable def verifyBody (S : Sys) (w : World) (circuit : Bytes) (proof pub : Nat) : Option Bool :=
  Lib.verify (callVerify S w circuit (w.mem proof)) (w.mem pub)

/-- The continuation of a call.  `verifier.ts` l. 48–69, `prover.ts` l. 75–98, `wasm.js` l. 412–430,
`wasm/index.ts` l. 5–8. -/
noncomputable def resume (S : Sys) (w : World) : Call → Call × World
  | .verifyFetch path proof pub => (.verifyLoaded (w.files path) proof pub, w)
  | .verifyLoaded none _ _ => (.verifyDone none, w)
  | .verifyLoaded (some c) proof pub =>
    match verifyBody S w c proof pub with
    | none => (.verifyDone none, w)
    | some b => (.verifyRet (some b), w)
  | .verifyRet r => (.verifyDone r, w)
  | .proveWitness gen path remote input r v m pub =>
    match S.witnessGen gen input with
    | none => (.proveDone none, w)
    | some wit =>
      (loadCircuit w remote path (.proveFetch path wit r v m pub) (fun c => .proveLoaded c wit r v m pub), w)
  | .proveFetch path wit r v m pub => (.proveLoaded (w.files path) wit r v m pub, w)
  | .proveLoaded none _ _ _ _ _ => (.proveDone none, w)
  | .proveLoaded (some c) wit r v m pub =>
    match pub.serialize with
    | none => (.proveDone none, w)
    | some bs =>
      match callProve S w c wit bs with
      | .ok proof => (.proveDone (some ⟨proof, r, v, m, pub⟩), { w with seed := w.seed + 1 })
      | .error _ => (.proveDone none, { w with seed := w.seed + 1 })
  | .initCompile => (.initInstantiate, w)
  | .initInstantiate => (.initHook, { w with ready := true })
  | .initHook => (.initDone, w)
  | .verifyDone r => (.verifyDone r, w)
  | .proveDone r => (.proveDone r, w)
  | .initDone => (.initDone, w)

/-- One step.  A new call runs up to its first `await`: `verifier.ts` l. 46–48, `prover.ts` l. 55–75,
`wasm.js` l. 412–424. -/
noncomputable def step (S : Sys) (w : World) : Act → World
  | .verify remote path proof pub =>
    { w with calls := w.calls ++
        [loadCircuit w remote path (.verifyFetch path proof pub) (fun c => .verifyLoaded c proof pub)] }
  | .prove gen path remote sig m merkleProof =>
    { w with calls := w.calls ++
        [match Lib.proverInputs sig (w.mem m) merkleProof with
         | none => .proveDone none
         | some (input, p) => .proveWitness gen path remote input p.r p.rV m p.circuitPubInput] }
  | .init => { w with calls := w.calls ++ [if w.ready then .initHook else .initCompile] }
  | .resume k =>
    match w.calls[k]? with
    | none => w
    | some c => let r := resume S w c; { r.2 with calls := w.calls.set k r.1 }
  | .write a bs => { w with mem := Function.update w.mem a bs }
  | .setFile path bs => { w with files := Function.update w.files path bs }

/-- A history. -/
noncomputable def exec (S : Sys) (w : World) (acts : List Act) : World := acts.foldl (step S) w

end Spartan.Async
