import Verif.Props.CircuitFile
import Verif.Props.CompleteRandom

/-!
C132 for the library: a member's proof is made and accepted for all but a fraction of `2^-250` of the hash functions.
-/

set_option linter.unusedSectionVars false
set_option exponentiation.threshold 2000

namespace Spartan
open Spec MParams Lib Mach Rank1
open Spec.Keccak (ethAddress)

attribute [local irreducible] poseidonNat k256Hash PoseidonParams.hash wasmPoseidon poseidonHash Circuit.Poseidon
  Circuit.EfficientECDSA Circuit.CoordsToAddress ethAddress

attribute [local irreducible] scalarOf challengeValue

variable {files : String → Option (List UInt8)} {args : List String} {inPath outPath num : String}


/-- The wasm prover depends on the hash only through the challenges of its run. -/
theorem wasmProveRun_local {F G P : Type} [Field F] [AddCommGroup G] [Module F G] [DecidableEq F] [DecidableEq P]
    [DecidableEq G] {W : Wire F P} {E : Env F G P} {src : GenSrc G} {K : Codec F} {h h' : Tr F P → F}
    {label : List UInt8} {tr0 : Tr F P} {tape : Tape F} {circuit vars pub : List UInt8} {pf : NIZK F P} {T : Tr F P}
    (hp : wasmProveRun (W.wasmEnv (E.withHash h') src K) label tr0 tape circuit vars pub = .ok (pf, T))
    (hag : Agree T h h') :
    wasmProveRun (W.wasmEnv (E.withHash h) src K) label tr0 tape circuit vars pub = .ok (pf, T) := by
  unfold wasmProveRun at hp ⊢
  cases hl : loadWitness vars with
  | error e => rw [hl] at hp; cases hp
  | ok ws =>
    rw [hl] at hp
    simp only at hp ⊢
    obtain ⟨a, h1, hp⟩ := bind_ok hp
    have h1' : assignmentU (W.wasmEnv (E.withHash h) src K).codec (ws.map coreToRepr) = .ok a := h1
    rw [h1', ok_bind]
    cases hd : (W.wasmEnv (E.withHash h') src K).decInst circuit with
    | none => rw [hd] at hp; cases hp
    | some I =>
      have hd' : (W.wasmEnv (E.withHash h) src K).decInst circuit = some I := hd
      rw [hd] at hp
      rw [hd']
      simp only at hp ⊢
      obtain ⟨gens, h2, hp⟩ := bind_ok hp
      obtain ⟨sl, h3, hp⟩ := bind_ok hp
      obtain ⟨x, h4, hp⟩ := bind_ok hp
      have h2' : NIZKGens.new (W.wasmEnv (E.withHash h) src K).src label I.inst.numVars I.inst.numInputs = .ok gens := h2
      have h4' : assignmentU (W.wasmEnv (E.withHash h) src K).codec sl = .ok x := h4
      rw [h2', ok_bind, h3, ok_bind, h4', ok_bind]
      exact (nizk_run_local (E := E.withHash h).1 pf T hp).2 hag

/-- From a run for every hash to the fraction of hash functions. -/
theorem lib_random {f : Pt.Formulas} {digest : R1CS Sc → List UInt8} {circuit wit pub label : List UInt8}
    {tape : Tape Sc} {Acc : (Tr Sc EncPt → Sc) → Prop}
    (h : ∀ hash : Tr Sc EncPt → Sc, ∃ pf T,
      wasmProveRun ((wire 32).wasmEnv ((env f "nizk_example").withHash (nonzeroFold hash)) (src f) (codec digest))
        label [] tape circuit wit pub = .ok (pf, T) ∧ folds T ≤ 31 ∧ (NoZeroFold hash T → Acc hash)) :
    ∃ D₀ : Finset (Tr Sc EncPt), ∀ D, D₀ ⊆ D →
      Set.ncard {h : D → Bytes64 | ∃ H : Tr Sc EncPt → Bytes64, (∀ t : D, H t = h t) ∧
        ¬ Acc fun t => scalarOf (H t)} * 2 ^ 250 ≤ Nat.card Bytes64 ^ D.card := by
  have : Fintype Bytes64 := Fintype.ofFinite _
  obtain ⟨D₀, hD⟩ := run_random scalarOf_fibres 31 (fun hash => wasmProveRun ((wire 32).wasmEnv
    ((env f "nizk_example").withHash hash) (src f) (codec digest)) label [] tape circuit wit pub) Acc h
    (fun h h' pf T hp hag => wasmProveRun_local hp hag)
  refine ⟨D₀, fun D hsub => random_arith (N := 31) (by norm_num) ?_⟩
  have := hD D hsub
  rw [← Nat.card_eq_fintype_card] at this
  exact this

/-- C132: a member of a tree of keys gets a proof with the circuit file that the tool writes for an r1cs file of the
circuit, and the verifier accepts it, for all but a fraction of `2^-250` of the hash functions. The exceptional cases are
those of C85; what is missing is that they do not occur. -/
theorem member_file_random_partial (f : Pt.Formulas)
    {digest : R1CS Sc → List UInt8} (hdig : ∀ i, (digest i).length < 2 ^ 32)
    -- the r1cs file and the witness generator
    {d : ℕ} (hd1 : 1 ≤ d) (hd32 : d ≤ 32) {h : Head} {cs : List Con} {m : List ℕ} {secs : List (ℕ × List UInt8)}
    (hf : FileFor d (Circuit.PubKeyMembership d) h cs m secs)
    {values : WitnessInput → List ℕ} {witnessGen : WitnessInput → Option (List UInt8)}
    (hgen : GeneratesFile d (fun w => ∃ X Y, HonestInputs d w X Y) h.nWires cs values witnessGen)
    -- the run of the tool
    (h1 : args[1]? = some inPath) (h2 : args[2]? = some outPath)
    (h3 : args[3]? = some num) (hnum : parseUsize 64 num.toList = some 5) (hfile : files inPath = some (encR1cs secs))
    -- the tree and the proof
    {ops : List TreeOp} (hops : FieldLeaves ops) {t : MerkleTree} {b : List Bool} (ht : treeAfter d ops = some (t, b))
    {i : ℕ} {mp : MerkleProof} (hmp : t.createProof i = some mp)
    -- the key and the signature
    {Q R : Secp} {r s v : ℕ} {sig msgHash : List UInt8} (hr : r < secpN) (hs : s < secpN) (hv : v < 256)
    (hsig : fromSig sig = some (r, s, v)) (hm : msgNum msgHash ≠ 0)
    (hS : SignedWith Q R (msgNum msgHash) r s (decide (v % 2 = 0)))
    (hleaf : t.leaves[i]? = some (hashPubKey (beBytes 32 (xy Q).1.val ++ beBytes 32 (xy Q).2.val)))
    -- the exceptional cases
    (hlow : ¬ (2 ^ 128 ≤ s + Circuit.tQlo ∧ s < 2 ^ 128))
    (hz : ¬ FalseZero (s • effT r R) (effU r (msgNum msgHash))) (hd : s • effT r R ≠ effU r (msgNum msgHash))
    (hreg : Regular (effT r R) ((s + Circuit.tQ) % Circuit.q))
    (hswap : ∀ x ∈ [t.root, (xy (effT r R)).1.val, (xy (effT r R)).2.val, (xy (effU r (msgNum msgHash))).1.val,
      (xy (effU r (msgNum msgHash))).2.val], swapped x < secpP)
    (hread : ∀ w p, proverInputs sig msgHash mp = some (w, p) → (∃ X Y, HonestInputs d w X Y) →
      ∀ x ∈ values w, Readable x)
    (label : List UInt8) (tape : Tape Sc) :
    ∃ circuit w p ser, genSpartanInst (wire 64) (codec digest) files args = .ok (outPath, circuit) ∧
      proverInputs sig msgHash mp = some (w, p) ∧ p.circuitPubInput.merkleRoot = t.root ∧ p.msgHash = msgHash ∧
      p.serialize = some ser ∧ ∃ D₀ : Finset (Tr Sc EncPt), ∀ D, D₀ ⊆ D →
      Set.ncard {h : D → Bytes64 | ∃ H : Tr Sc EncPt → Bytes64, (∀ t : D, H t = h t) ∧
        ¬ ∃ proof,
          Lib.prove witnessGen (wasmProve ((wire 32).wasmEnv
            ((env f "nizk_example").withHash fun t => scalarOf (H t)) (src f) (codec digest)) label [] tape circuit) sig msgHash mp = some (proof, p) ∧
          Lib.verify (wasmVerify ((wire 32).wasmEnv
            ((env f "nizk_example").withHash fun t => scalarOf (H t)) (src f) (codec digest)) label [] circuit proof) ser = some true} * 2 ^ 250 ≤ Nat.card Bytes64 ^ D.card := by
  obtain ⟨rc, wm, hrc, hsys, hnv, hcons⟩ := file_system hf
  obtain ⟨I, w, p, ser, wit, pub, e1, e2, e3, e4, e5, e6, e7, e8⟩ := member_machine_hash_partial f (le_refl 32) (by norm_num) hdig
    hd1 hd32 hsys (generates_of_file hgen hnv hcons) hops ht hmp hr hs hv hsig hm hS hleaf hlow hz hd hreg hswap hread label
    tape
  refine ⟨_, w, p, ser, machine_gen hrc e1 h1 h2 h3 hnum hfile, e2, e3, e4, e5, ?_⟩
  exact lib_random (Acc := fun hash => ∃ proof,
    Lib.prove witnessGen (wasmProve ((wire 32).wasmEnv ((env f "nizk_example").withHash hash) (src f) (codec digest))
      label [] tape ((wire 32).fInst.enc I)) sig msgHash mp = some (proof, p) ∧
    Lib.verify (wasmVerify ((wire 32).wasmEnv ((env f "nizk_example").withHash hash) (src f) (codec digest))
      label [] ((wire 32).fInst.enc I) proof) ser = some true) e8

/-- C132: a member of a tree of addresses gets a proof with the circuit file that the tool writes for an r1cs file of the
circuit, and the verifier accepts it, for all but a fraction of `2^-250` of the hash functions. The exceptional cases are
those of C85; what is missing is that they do not occur. -/
theorem address_file_random_partial (f : Pt.Formulas)
    {digest : R1CS Sc → List UInt8} (hdig : ∀ i, (digest i).length < 2 ^ 32)
    -- the r1cs file and the witness generator
    {d : ℕ} (hd1 : 1 ≤ d) (hd32 : d ≤ 32) {h : Head} {cs : List Con} {m : List ℕ} {secs : List (ℕ × List UInt8)}
    (hf : FileFor d (Circuit.AddrMembership d) h cs m secs)
    {values : WitnessInput → List ℕ} {witnessGen : WitnessInput → Option (List UInt8)}
    (hgen : GeneratesFile d (fun w => ∃ X Y, HonestAddrInputs d w X Y) h.nWires cs values witnessGen)
    -- the run of the tool
    (h1 : args[1]? = some inPath) (h2 : args[2]? = some outPath)
    (h3 : args[3]? = some num) (hnum : parseUsize 64 num.toList = some 5) (hfile : files inPath = some (encR1cs secs))
    -- the tree and the proof
    {ops : List TreeOp} (hops : FieldLeaves ops) {t : MerkleTree} {b : List Bool} (ht : treeAfter d ops = some (t, b))
    {i : ℕ} {mp : MerkleProof} (hmp : t.createProof i = some mp)
    -- the key and the signature
    {Q R : Secp} {r s v : ℕ} {sig msgHash : List UInt8} (hr : r < secpN) (hs : s < secpN) (hv : v < 256)
    (hsig : fromSig sig = some (r, s, v)) (hm : msgNum msgHash ≠ 0)
    (hS : SignedWith Q R (msgNum msgHash) r s (decide (v % 2 = 0)))
    (hleaf : t.leaves[i]? = some (ethAddress (xy Q).1.val (xy Q).2.val))
    -- the exceptional cases
    (hlow : ¬ (2 ^ 128 ≤ s + Circuit.tQlo ∧ s < 2 ^ 128))
    (hz : ¬ FalseZero (s • effT r R) (effU r (msgNum msgHash))) (hd : s • effT r R ≠ effU r (msgNum msgHash))
    (hreg : Regular (effT r R) ((s + Circuit.tQ) % Circuit.q))
    (hswap : ∀ x ∈ [t.root, (xy (effT r R)).1.val, (xy (effT r R)).2.val, (xy (effU r (msgNum msgHash))).1.val,
      (xy (effU r (msgNum msgHash))).2.val], swapped x < secpP)
    (hread : ∀ w p, proverInputs sig msgHash mp = some (w, p) → (∃ X Y, HonestAddrInputs d w X Y) →
      ∀ x ∈ values w, Readable x)
    (label : List UInt8) (tape : Tape Sc) :
    ∃ circuit w p ser, genSpartanInst (wire 64) (codec digest) files args = .ok (outPath, circuit) ∧
      proverInputs sig msgHash mp = some (w, p) ∧ p.circuitPubInput.merkleRoot = t.root ∧ p.msgHash = msgHash ∧
      p.serialize = some ser ∧ ∃ D₀ : Finset (Tr Sc EncPt), ∀ D, D₀ ⊆ D →
      Set.ncard {h : D → Bytes64 | ∃ H : Tr Sc EncPt → Bytes64, (∀ t : D, H t = h t) ∧
        ¬ ∃ proof,
          Lib.prove witnessGen (wasmProve ((wire 32).wasmEnv
            ((env f "nizk_example").withHash fun t => scalarOf (H t)) (src f) (codec digest)) label [] tape circuit) sig msgHash mp = some (proof, p) ∧
          Lib.verify (wasmVerify ((wire 32).wasmEnv
            ((env f "nizk_example").withHash fun t => scalarOf (H t)) (src f) (codec digest)) label [] circuit proof) ser = some true} * 2 ^ 250 ≤ Nat.card Bytes64 ^ D.card := by
  obtain ⟨rc, wm, hrc, hsys, hnv, hcons⟩ := file_system hf
  obtain ⟨I, w, p, ser, wit, pub, e1, e2, e3, e4, e5, e6, e7, e8⟩ := address_machine_hash_partial f (le_refl 32) (by norm_num) hdig
    hd1 hd32 hsys (generates_of_file hgen hnv hcons) hops ht hmp hr hs hv hsig hm hS hleaf hlow hz hd hreg hswap hread label
    tape
  refine ⟨_, w, p, ser, machine_gen hrc e1 h1 h2 h3 hnum hfile, e2, e3, e4, e5, ?_⟩
  exact lib_random (Acc := fun hash => ∃ proof,
    Lib.prove witnessGen (wasmProve ((wire 32).wasmEnv ((env f "nizk_example").withHash hash) (src f) (codec digest))
      label [] tape ((wire 32).fInst.enc I)) sig msgHash mp = some (proof, p) ∧
    Lib.verify (wasmVerify ((wire 32).wasmEnv ((env f "nizk_example").withHash hash) (src f) (codec digest))
      label [] ((wire 32).fInst.enc I) proof) ser = some true) e8

end Spartan
