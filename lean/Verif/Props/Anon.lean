import Verif.Props.Compile
import Verif.Props.ZeroKnowledge

/-!
C129: the proof does not tell which member of the tree made it, and nothing but the public input, on the limbs and points of
the program.
-/

set_option exponentiation.threshold 2000

namespace Spartan
open Spec MParams Lib Mach Rank1
open Spec.Keccak (ethAddress)

attribute [local irreducible] poseidonNat k256Hash PoseidonParams.hash wasmPoseidon poseidonHash Circuit.Poseidon
  Circuit.EfficientECDSA Circuit.CoordsToAddress ethAddress

/-- A group element other than the identity generates the group of the program. -/
theorem ge_cyclic {f : Pt.Formulas} {a : GE f} (ha : a ≠ 0) : Function.Bijective fun s : Sc => s • a := by
  have h0 : a.val ≠ 0 := fun h => ha (GE.val_inj (by rw [h, ge_zero]))
  obtain ⟨h1, h2⟩ := secq_cyclic a.val h0
  refine ⟨fun s t h => Sc.val_inj (h1 ?_), fun b => ?_⟩
  · have := congrArg GE.val h
    rwa [ge_smul, ge_smul] at this
  · obtain ⟨x, hx⟩ := h2 b.val
    obtain ⟨s, hs⟩ := Sc.exists_val x
    refine ⟨s, GE.val_inj ?_⟩
    rw [ge_smul, hs]
    exact hx

/-- The generators for the blinding factors are not the identity. -/
def BlindsNonzero {G : Type} [Zero G] (gens : R1CSGens G) : Prop :=
  gens.gens1.h ≠ 0 ∧ gens.gens3.h ≠ 0 ∧ gens.gens4.h ≠ 0

theorem blindsSpan_of {f : Pt.Formulas} {gens : R1CSGens (GE f)} (h : BlindsNonzero gens) : BlindsSpan Sc gens :=
  ⟨ge_cyclic h.1, ge_cyclic h.2.1, ge_cyclic h.2.2⟩

noncomputable instance : Fintype Sc :=
  haveI : Finite Sc := Finite.of_injective Sc.val fun _ _ h => Sc.val_inj h
  Fintype.ofFinite Sc

/-- C129: `NIZK::prove` is zero-knowledge with the limbs, points and generators of the program: a bijection of the random
scalars turns its runs into runs of a simulator without the assignment. -/
theorem machine_zero_knowledge (f : Pt.Formulas) (name : String) {digest : R1CS Sc → List UInt8} {nc nv ni : Nat}
    {A B C : List (Nat × Nat × List UInt8)} {I : Inst Sc}
    (hnew : Inst.new (codec digest) nc nv ni A B C = .ok (.ok I)) (hc : 1 ≤ nc) (hsz : I.inst.numVars ≤ 2 ^ 62)
    {label : List UInt8} {gens : R1CSGens (GE f)} (hg : NIZKGens.new (src f) label nv ni = .ok gens)
    (hb : BlindsNonzero gens) {vars inputs : List Sc} (hsat : I.isSat vars inputs = .ok (.ok true)) (c : Nat → Sc)
    (tr : Tr Sc EncPt) :
    (∃ φ : (Fin (proverDraws I) → Sc) ≃ (Fin (proverDraws I) → Sc), ∀ d rest rest',
      NIZK.prove (withCoins (env f name) c) I vars inputs gens tr (Tape.pre d rest) =
        simulateNIZK (env f name) c I inputs gens tr (Tape.pre (φ d) rest')) ∧
    ∀ rest rest' outcome, Set.ncard {d : Fin (proverDraws I) → Sc |
        NIZK.prove (withCoins (env f name) c) I vars inputs gens tr (Tape.pre d rest) = outcome} =
      Set.ncard {d : Fin (proverDraws I) → Sc |
        simulateNIZK (env f name) c I inputs gens tr (Tape.pre d rest') = outcome} :=
  ⟨nizk_zero_knowledge two_ne three_ne (machine_encodings (f := f) name).2.2 hnew hc hsz hg (blindsSpan_of hb) hsat c tr,
    nizk_simulated_distribution two_ne three_ne (machine_encodings (f := f) name).2.2 hnew hc hsz hg (blindsSpan_of hb) hsat
      c tr⟩

/-- C129 for `prove` of the wasm interface: a bijection of the random scalars carries each run on one witness file to a run
on another that returns the same bytes. -/
theorem machine_witness_indistinguishable (f : Pt.Formulas) {bits : Nat} (h32 : 32 ≤ bits) (h64 : bits ≤ 64)
    {digest : R1CS Sc → List UInt8} {r : CircomR1CS}
    (hr : ∀ c ∈ r.constraints, ∀ t ∈ c.1 ++ c.2.1 ++ c.2.2, t.1 < r.numVariables ∧ leNat (coreToRepr t.2) < secpP)
    (hc : r.constraints ≠ []) {numPub : Nat} {I : Inst Sc} (hI : convertToSpartan (codec digest) r numPub = .ok I)
    (hok : (wire bits).okInst I) (hsz : I.inst.numVars ≤ 2 ^ 62) {label : List UInt8}
    (hb : ∀ gens, NIZKGens.new (src f) label r.numVariables numPub = .ok gens → BlindsNonzero gens)
    {pub : List UInt8} (hlen : numPub * 32 ≤ pub.length) (hcanon : ∀ b ∈ chunks pub numPub, leNat b < secpP)
    {version version' : Nat} {prime prime' : List UInt8} {ws ws' : List Nat} (hv : version ≤ 2) (hv' : version' ≤ 2)
    (hp : prime.length = 32) (hp' : prime'.length = 32)
    (hw : ws.length < 2 ^ 27) (hwl : ws.length = r.numVariables) (hwl' : ws'.length = r.numVariables)
    (hws : ∀ w ∈ ws, Readable w ∧ w < secpP) (hws' : ∀ w ∈ ws', Readable w ∧ w < secpP)
    (hsat : ConsHold coefRes (r.constraints.map toCon) (ws.map fun w : Nat => (w : ZMod secpP)))
    (hsat' : ConsHold coefRes (r.constraints.map toCon) (ws'.map fun w : Nat => (w : ZMod secpP))) (tr0 : Tr Sc EncPt) :
    ∃ φ : (Fin (proverDraws I) → Sc) ≃ (Fin (proverDraws I) → Sc), ∀ d rest rest',
      wasmProve (wasm f bits digest) label tr0 (Tape.pre d rest) ((wire bits).fInst.enc I)
          (encWtns version prime (32 * ws.length) ws) pub =
        wasmProve (wasm f bits digest) label tr0 (Tape.pre (φ d) rest') ((wire bits).fInst.enc I)
          (encWtns version' prime' (32 * ws'.length) ws') pub := by
  have hcirc : (wasm f bits digest).decInst ((wire bits).fInst.enc I) = some I :=
    deserializeU_of (instance_bytes_roundtrip (machine_wire (by omega) h64).2.2 hok)
  have hfield : ∀ w, w < secpP → ((codec digest).fromBytes (encField w)).isSome := by
    intro w hw
    obtain ⟨a, e, -⟩ := field_bytes digest hw
    rw [e]; rfl
  exact wasm_witness_indistinguishable two_ne three_ne (W := wasm f bits digest) (machine_encodings (f := f) "nizk_example").2.2
    (machine_convertible digest hr) hc hI hsz hcirc (fun gens hg => blindsSpan_of (hb gens hg)) hlen
    (fun b hb => by
      obtain ⟨a, e, -⟩ := (machine_from_bytes digest (chunk_length hlen b hb)).1 (hcanon b hb)
      rw [show (wasm f bits digest).codec = codec digest from rfl, e]; rfl) hv hv' hp hp' hw hwl hwl'
    (fun w hm => ⟨(hws w hm).1, hfield w (hws w hm).2⟩) (fun w hm => ⟨(hws' w hm).1, hfield w (hws' w hm).2⟩)
    (machine_consHold digest hr (fun w hm => (hws w hm).2) hsat)
    (machine_consHold digest hr (fun w hm => (hws' w hm).2) hsat') tr0

/-- A member of the tree `t` with a signature, outside the exceptional cases of the circuit: leaf `i`, which `leaf` makes of
the key `Q`, has the Merkle proof `mp`, and `sig` is a signature of `msgHash` with the nonce point `R`. -/
structure Signer (t : MerkleTree) (leaf : Secp → Option ℕ) (Q R : Secp) (r s v : ℕ) (sig msgHash : List UInt8) (i : ℕ)
    (mp : MerkleProof) : Prop where
  proof : t.createProof i = some mp
  member : t.leaves[i]? = some (leaf Q)
  range : s < secpN
  parsed : fromSig sig = some (r, s, v)
  signed : SignedWith Q R (msgNum msgHash) r s (decide (v % 2 = 0))
  low : ¬ (2 ^ 128 ≤ s + Circuit.tQlo ∧ s < 2 ^ 128)
  noFalseZero : ¬ FalseZero (s • effT r R) (effU r (msgNum msgHash))
  noDouble : s • effT r R ≠ effU r (msgNum msgHash)
  regular : Regular (effT r R) ((s + Circuit.tQ) % Circuit.q)

/-- The leaf for a key in a tree of keys. -/
noncomputable def keyLeaf (Q : Secp) : Option ℕ := hashPubKey (beBytes 32 (xy Q).1.val ++ beBytes 32 (xy Q).2.val)

/-- The leaf for a key in a tree of addresses. -/
noncomputable def addressLeaf (Q : Secp) : Option ℕ := some (ethAddress (xy Q).1.val (xy Q).2.val)

theorem signer_inputs {d : ℕ} (hd1 : 1 ≤ d) (hd32 : d ≤ 32) {ops : List TreeOp} (hops : FieldLeaves ops)
    {t : MerkleTree} {b : List Bool} (ht : treeAfter d ops = some (t, b)) {Q R : Secp} {r s v : ℕ}
    {sig msgHash : List UInt8} {i : ℕ} {mp : MerkleProof} (hr : r < secpN) (hv : v < 256) (hm : msgNum msgHash ≠ 0)
    (h : Signer t keyLeaf Q R r s v sig msgHash i mp) :
    ∃ w, proverInputs sig msgHash mp = some (w, ⟨r, v, msgHash, ⟨t.root, (xy (effT r R)).1.val, (xy (effT r R)).2.val,
        (xy (effU r (msgNum msgHash))).1.val, (xy (effU r (msgNum msgHash))).2.val⟩⟩) ∧
      (∃ X Y, HonestInputs d w X Y) ∧ ∀ rc, SystemFor d (Circuit.PubKeyMembership d) rc → rc.constraints ≠ [] := by
  obtain ⟨hmp, hleaf, hs, hsig, hS, hlow, hz, hd, hreg⟩ := h
  obtain ⟨hT0, hU0, hQ, hin, -, -⟩ := prover_inputs (mp := mp) hr hv hsig hm hS
  generalize effT r R = T at *
  generalize effU r (msgNum msgHash) = U at *
  have hroot : mp.root = t.root := by
    unfold MerkleTree.createProof at hmp
    split_ifs at hmp
    rw [← Option.some.inj hmp]
  have hsP : s < secpP := hs.trans (by decide +kernel)
  have hsv : ((s : ℕ) : ZMod secpP).val = s := by rw [ZMod.val_natCast, Nat.mod_eq_of_lt hsP]
  obtain ⟨k, hk, hkb, hmem⟩ := tree_member_proves_partial hd1 hd32 hops ht T U hT0 (s : ZMod secpP)
    (by rw [hsv]; exact hlow) (by rw [hsv]; exact hz) (by rw [hsv]; exact fun h => absurd h hd)
    (by rw [hsv, ← hQ]; exact hleaf) hmp
  obtain ⟨kBits, kb1, kb2⟩ := hmem (by rw [honest_k hsP hlow hk hkb]; exact hreg)
  rw [hroot] at hin
  refine ⟨_, hin, ⟨(xy ((s : ZMod secpP).val • T + U)).1, (xy ((s : ZMod secpP).val • T + U)).2, kBits, kb1, ?_⟩,
    fun rc hsys => systemFor_ne hsys (R := Circuit.PubKeyMembership d) ⟨kBits, _, _, kb2⟩ (path' := fun _ => 2) ?_⟩
  · simp only [ZMod.natCast_zmod_val]
    exact kb2
  · rintro ⟨kBits, X, Y, -, _, _, -, h, -⟩
    exact merkle_bit hd1 h

theorem signer_addr_inputs {d : ℕ} (hd1 : 1 ≤ d) (hd32 : d ≤ 32) {ops : List TreeOp} (hops : FieldLeaves ops)
    {t : MerkleTree} {b : List Bool} (ht : treeAfter d ops = some (t, b)) {Q R : Secp} {r s v : ℕ}
    {sig msgHash : List UInt8} {i : ℕ} {mp : MerkleProof} (hr : r < secpN) (hv : v < 256) (hm : msgNum msgHash ≠ 0)
    (h : Signer t addressLeaf Q R r s v sig msgHash i mp) :
    ∃ w, proverInputs sig msgHash mp = some (w, ⟨r, v, msgHash, ⟨t.root, (xy (effT r R)).1.val, (xy (effT r R)).2.val,
        (xy (effU r (msgNum msgHash))).1.val, (xy (effU r (msgNum msgHash))).2.val⟩⟩) ∧
      (∃ X Y, HonestAddrInputs d w X Y) ∧ ∀ rc, SystemFor d (Circuit.AddrMembership d) rc → rc.constraints ≠ [] := by
  obtain ⟨hmp, hleaf, hs, hsig, hS, hlow, hz, hd, hreg⟩ := h
  obtain ⟨hT0, hU0, hQ, hin, -, -⟩ := prover_inputs (mp := mp) hr hv hsig hm hS
  generalize effT r R = T at *
  generalize effU r (msgNum msgHash) = U at *
  have hroot : mp.root = t.root := by
    unfold MerkleTree.createProof at hmp
    split_ifs at hmp
    rw [← Option.some.inj hmp]
  have hsP : s < secpP := hs.trans (by decide +kernel)
  have hsv : ((s : ℕ) : ZMod secpP).val = s := by rw [ZMod.val_natCast, Nat.mod_eq_of_lt hsP]
  obtain ⟨k, hk, hkb, hmem⟩ := tree_address_proves_partial hd1 hd32 hops ht T U hT0 (s : ZMod secpP)
    (by rw [hsv]; exact hlow) (by rw [hsv]; exact hz) (by rw [hsv]; exact fun h => absurd h hd)
    (by rw [hsv, ← hQ]; exact hleaf) hmp
  obtain ⟨kBits, kb1, kb2⟩ := hmem (by rw [honest_k hsP hlow hk hkb]; exact hreg)
  rw [hroot] at hin
  refine ⟨_, hin, ⟨(xy ((s : ZMod secpP).val • T + U)).1, (xy ((s : ZMod secpP).val • T + U)).2, kBits, kb1, ?_⟩,
    fun rc hsys => systemFor_ne hsys (R := Circuit.AddrMembership d) ⟨kBits, _, _, _, kb2⟩ (path' := fun _ => 2) ?_⟩
  · simp only [ZMod.natCast_zmod_val]
    exact kb2
  · rintro ⟨kBits, X, Y, a, -, -, _, h, -⟩
    exact merkle_bit hd1 h

theorem lib_prove_congr {witnessGen : WitnessInput → Option (List UInt8)} {wp wp' : List UInt8 → List UInt8 → Out (List UInt8)}
    {sig sig' msgHash msgHash' : List UInt8} {mp mp' : MerkleProof} {w w' : WitnessInput} {p : PublicInput}
    {wit wit' bs : List UInt8} (h1 : proverInputs sig msgHash mp = some (w, p))
    (h1' : proverInputs sig' msgHash' mp' = some (w', p)) (h2 : witnessGen w = some wit) (h2' : witnessGen w' = some wit')
    (h3 : p.circuitPubInput.serialize = some bs) (h4 : wp wit bs = wp' wit' bs) :
    Lib.prove witnessGen wp sig msgHash mp = Lib.prove witnessGen wp' sig' msgHash' mp' := by
  have e : ∀ {wp : List UInt8 → List UInt8 → Out (List UInt8)} {sig msgHash : List UInt8} {mp : MerkleProof}
      {w : WitnessInput} {wit : List UInt8}, proverInputs sig msgHash mp = some (w, p) → witnessGen w = some wit →
      Lib.prove witnessGen wp sig msgHash mp = match wp wit bs with | .ok proof => some (proof, p) | .error _ => none := by
    intro wp sig msgHash mp w wit h1 h2
    unfold Lib.prove
    rw [h1]
    refine (Option.bind_some _ _).trans ?_
    change witnessGen w >>= _ = _
    rw [h2]
    refine (Option.bind_some _ _).trans ?_
    rw [h3]
    exact Option.bind_some _ _
  rw [e h1 h2, e h1' h2', h4]

/-- From two inputs with the same public input to the same results, for any circuit. -/
theorem machine_lib_anonymous (f : Pt.Formulas) {bits : ℕ} (h32 : 32 ≤ bits) (h64 : bits ≤ 64)
    {digest : R1CS Sc → List UInt8}
    {d : ℕ} {R : (s root Tx Ty Ux Uy : ZMod secpP) → (path sib : ℕ → ZMod secpP) → Prop} {rc : CircomR1CS}
    (hsys : SystemFor d R rc) (hne : rc.constraints ≠ []) {I : Inst Sc} (hI : convertToSpartan (codec digest) rc 5 = .ok I)
    (hok : (wire bits).okInst I) (hsz : I.inst.numVars ≤ 2 ^ 62) {label : List UInt8}
    (hb : ∀ gens, NIZKGens.new (src f) label rc.numVariables 5 = .ok gens → BlindsNonzero gens)
    {values : WitnessInput → List ℕ} {witnessGen : WitnessInput → Option (List UInt8)}
    {H : WitnessInput → Prop} (hgen : Generates d H rc values witnessGen) {sig sig' msgHash msgHash' : List UInt8}
    {mp mp' : MerkleProof} {w w' : WitnessInput} {p : PublicInput} (hin : proverInputs sig msgHash mp = some (w, p))
    (hin' : proverInputs sig' msgHash' mp' = some (w', p))
    (hH : H w) (hH' : H w') (hread : ∀ x ∈ values w, Readable x) (hread' : ∀ x ∈ values w', Readable x)
    (hfit : PubFits p.circuitPubInput) (hswap : ∀ x ∈ [p.circuitPubInput.merkleRoot, p.circuitPubInput.Tx,
      p.circuitPubInput.Ty, p.circuitPubInput.Ux, p.circuitPubInput.Uy], swapped x < secpP) :
    ∃ φ : (Fin (proverDraws I) → Sc) ≃ (Fin (proverDraws I) → Sc), ∀ e rest rest',
      Lib.prove witnessGen (wasmProve (wasm f bits digest) label [] (Tape.pre e rest) ((wire bits).fInst.enc I)) sig msgHash
          mp =
        Lib.prove witnessGen (wasmProve (wasm f bits digest) label [] (Tape.pre (φ e) rest') ((wire bits).fInst.enc I)) sig'
          msgHash' mp' := by
  obtain ⟨⟨version, prime, hv, hpr, hw⟩, g1, g2, -, g4⟩ := hgen w hH
  obtain ⟨⟨version', prime', hv', hpr', hw'⟩, g1', g2', -, g4'⟩ := hgen w' hH'
  obtain ⟨pub, hb', hch⟩ := pub_input_chunks hfit
  have hlen : 5 * 32 ≤ pub.length := by
    obtain ⟨bs', hb'', hl, -⟩ := circuit_pub_input_roundtrip hfit
    rw [hb'] at hb''
    cases hb''
    omega
  obtain ⟨φ, hφ⟩ := machine_witness_indistinguishable f h32 h64 hsys.1 hne hI hok hsz hb hlen (by
    rw [hch]
    intro b hb
    simp only [List.mem_cons, List.not_mem_nil, or_false] at hb
    rcases hb with rfl | rfl | rfl | rfl | rfl <;> exact hswap _ (by simp)) hv hv' hpr hpr'
    (by rw [g2]; exact lt_trans hsys.2.1 (by norm_num)) g2 g2' (fun x hx => ⟨hread x hx, g1 x hx⟩)
    (fun x hx => ⟨hread' x hx, g1' x hx⟩) g4 g4' []
  exact ⟨φ, fun e rest rest' => lib_prove_congr hin hin' hw hw' hb' (hφ e rest rest')⟩

/-- C129: two members of a tree of keys, each with a signature of the same message with the same nonce point: a bijection of the
random scalars turns each result of the prover for the one, proof and public input, into the same result for the other.
What is missing are the exceptional cases in `Signer` and the values that cannot be read. -/
theorem member_anonymous_partial (f : Pt.Formulas) {bits : ℕ} (h32 : 32 ≤ bits) (h64 : bits ≤ 64)
    {digest : R1CS Sc → List UInt8} (hdig : ∀ i, (digest i).length < 2 ^ 32)
    {d : ℕ} (hd1 : 1 ≤ d) (hd32 : d ≤ 32) {rc : CircomR1CS} (hsys : SystemFor d (Circuit.PubKeyMembership d) rc)
    {values : WitnessInput → List ℕ} {witnessGen : WitnessInput → Option (List UInt8)}
    (hgen : Generates d (fun w => ∃ X Y, HonestInputs d w X Y) rc values witnessGen)
    {ops : List TreeOp} (hops : FieldLeaves ops) {t : MerkleTree} {b : List Bool} (ht : treeAfter d ops = some (t, b))
    {Q Q' R : Secp} {r s s' v : ℕ} {sig sig' msgHash : List UInt8} {i i' : ℕ} {mp mp' : MerkleProof} (hr : r < secpN)
    (hv : v < 256) (hm : msgNum msgHash ≠ 0) (h : Signer t keyLeaf Q R r s v sig msgHash i mp)
    (h' : Signer t keyLeaf Q' R r s' v sig' msgHash i' mp')
    (hswap : ∀ x ∈ [t.root, (xy (effT r R)).1.val, (xy (effT r R)).2.val, (xy (effU r (msgNum msgHash))).1.val,
      (xy (effU r (msgNum msgHash))).2.val], swapped x < secpP)
    (hread : ∀ w p, proverInputs sig msgHash mp = some (w, p) → ∀ x ∈ values w, Readable x)
    (hread' : ∀ w p, proverInputs sig' msgHash mp' = some (w, p) → ∀ x ∈ values w, Readable x) {label : List UInt8}
    (hb : ∀ gens, NIZKGens.new (src f) label rc.numVariables 5 = .ok gens → BlindsNonzero gens) :
    ∃ I, convertToSpartan (codec digest) rc 5 = .ok I ∧
      ∃ φ : (Fin (proverDraws I) → Sc) ≃ (Fin (proverDraws I) → Sc), ∀ e rest rest',
        Lib.prove witnessGen (wasmProve (wasm f bits digest) label [] (Tape.pre e rest) ((wire bits).fInst.enc I)) sig
            msgHash mp =
          Lib.prove witnessGen (wasmProve (wasm f bits digest) label [] (Tape.pre (φ e) rest') ((wire bits).fInst.enc I)) sig'
            msgHash mp' := by
  obtain ⟨w, hin, hh, hne⟩ := signer_inputs hd1 hd32 hops ht hr hv hm h
  obtain ⟨w', hin', hh', -⟩ := signer_inputs hd1 hd32 hops ht hr hv hm h'
  obtain ⟨I, hI, hok, hsz⟩ := systemFor_inst hsys h32 hdig
  have hlt : ∀ x : ZMod secpP, x.val < 2 ^ 256 := fun x => (ZMod.val_lt x).trans secpP_lt_256
  exact ⟨I, hI, machine_lib_anonymous f h32 h64 hsys (hne rc hsys) hI hok hsz hb hgen hin hin' hh hh' (hread _ _ hin)
    (hread' _ _ hin') ⟨(tree_root_lt hd1 hd32 hops ht).trans secpP_lt_256, hlt _, hlt _, hlt _, hlt _⟩ hswap⟩

/-- C129: the same for two members of a tree of addresses. -/
theorem address_anonymous_partial (f : Pt.Formulas) {bits : ℕ} (h32 : 32 ≤ bits) (h64 : bits ≤ 64)
    {digest : R1CS Sc → List UInt8} (hdig : ∀ i, (digest i).length < 2 ^ 32)
    {d : ℕ} (hd1 : 1 ≤ d) (hd32 : d ≤ 32) {rc : CircomR1CS} (hsys : SystemFor d (Circuit.AddrMembership d) rc)
    {values : WitnessInput → List ℕ} {witnessGen : WitnessInput → Option (List UInt8)}
    (hgen : Generates d (fun w => ∃ X Y, HonestAddrInputs d w X Y) rc values witnessGen)
    {ops : List TreeOp} (hops : FieldLeaves ops) {t : MerkleTree} {b : List Bool} (ht : treeAfter d ops = some (t, b))
    {Q Q' R : Secp} {r s s' v : ℕ} {sig sig' msgHash : List UInt8} {i i' : ℕ} {mp mp' : MerkleProof} (hr : r < secpN)
    (hv : v < 256) (hm : msgNum msgHash ≠ 0) (h : Signer t addressLeaf Q R r s v sig msgHash i mp)
    (h' : Signer t addressLeaf Q' R r s' v sig' msgHash i' mp')
    (hswap : ∀ x ∈ [t.root, (xy (effT r R)).1.val, (xy (effT r R)).2.val, (xy (effU r (msgNum msgHash))).1.val,
      (xy (effU r (msgNum msgHash))).2.val], swapped x < secpP)
    (hread : ∀ w p, proverInputs sig msgHash mp = some (w, p) → ∀ x ∈ values w, Readable x)
    (hread' : ∀ w p, proverInputs sig' msgHash mp' = some (w, p) → ∀ x ∈ values w, Readable x) {label : List UInt8}
    (hb : ∀ gens, NIZKGens.new (src f) label rc.numVariables 5 = .ok gens → BlindsNonzero gens) :
    ∃ I, convertToSpartan (codec digest) rc 5 = .ok I ∧
      ∃ φ : (Fin (proverDraws I) → Sc) ≃ (Fin (proverDraws I) → Sc), ∀ e rest rest',
        Lib.prove witnessGen (wasmProve (wasm f bits digest) label [] (Tape.pre e rest) ((wire bits).fInst.enc I)) sig
            msgHash mp =
          Lib.prove witnessGen (wasmProve (wasm f bits digest) label [] (Tape.pre (φ e) rest') ((wire bits).fInst.enc I)) sig'
            msgHash mp' := by
  obtain ⟨w, hin, hh, hne⟩ := signer_addr_inputs hd1 hd32 hops ht hr hv hm h
  obtain ⟨w', hin', hh', -⟩ := signer_addr_inputs hd1 hd32 hops ht hr hv hm h'
  obtain ⟨I, hI, hok, hsz⟩ := systemFor_inst hsys h32 hdig
  have hlt : ∀ x : ZMod secpP, x.val < 2 ^ 256 := fun x => (ZMod.val_lt x).trans secpP_lt_256
  exact ⟨I, hI, machine_lib_anonymous f h32 h64 hsys (hne rc hsys) hI hok hsz hb hgen hin hin' hh hh' (hread _ _ hin)
    (hread' _ _ hin') ⟨(tree_root_lt hd1 hd32 hops ht).trans secpP_lt_256, hlt _, hlt _, hlt _, hlt _⟩ hswap⟩

end Spartan
