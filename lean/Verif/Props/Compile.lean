import Verif.Props.Machine
import Verif.Props.AddrProver
import Verif.Props.GenInst
import Verif.Lemmas.TemplatesKeccak

/-!
C127: the membership circuits as rank-1 constraints over numbered wires, and C128: from a signature and a tree to an
accepted proof with those constraints, on the limbs and points of the program.
-/

set_option exponentiation.threshold 2000

namespace Spartan
open Spec MParams Lib Mach Rank1
open Spec.Keccak (ethAddress)

attribute [local irreducible] poseidonNat k256Hash PoseidonParams.hash wasmPoseidon poseidonHash Circuit.Poseidon
  Circuit.EfficientECDSA Circuit.CoordsToAddress ethAddress

/-- The values of the wires: one, the public signals, the private ones, and the internal signals `y`. -/
def wireValues (d : ℕ) (s root Tx Ty Ux Uy : ZMod secpP) (path sib : ℕ → ZMod secpP) (y : List (ZMod secpP)) :
    List (ZMod secpP) :=
  [1, root, Tx, Ty, Ux, Uy, s] ++ (List.range d).map path ++ (List.range d).map sib ++ y

/-- `rc` is a system of rank-1 constraints for the circuit `R` of depth `d`: of exactly the inputs of which `R` holds,
the constraints hold for some values of the internal signals; the wires exist, the coefficients are canonical, and there
are fewer than `2^26` wires, constraints and terms. -/
def SystemFor (d : ℕ) (R : (s root Tx Ty Ux Uy : ZMod secpP) → (path sib : ℕ → ZMod secpP) → Prop) (rc : CircomR1CS) :
    Prop :=
  (∀ c ∈ rc.constraints, ∀ t ∈ c.1 ++ c.2.1 ++ c.2.2, t.1 < rc.numVariables ∧ leNat (coreToRepr t.2) < secpP) ∧
  rc.numVariables < 2 ^ 26 ∧ rc.constraints.length < 2 ^ 26 ∧
  (rc.constraints.map fun c => c.1.length + c.2.1.length + c.2.2.length).sum < 2 ^ 26 ∧
  ∀ s root Tx Ty Ux Uy path sib, R s root Tx Ty Ux Uy path sib ↔
    ∃ y, (wireValues d s root Tx Ty Ux Uy path sib y).length = rc.numVariables ∧
      ConsHold coefRes (rc.constraints.map toCon) (wireValues d s root Tx Ty Ux Uy path sib y)

theorem coefRes_swapped (v : ZMod secpP) : leNat (coreToRepr (swapped v.val)) = v.val ∧ coefRes (swapped v.val) = v := by
  have h : leNat (coreToRepr (swapped v.val)) = v.val := by
    rw [coreToRepr_swapped, leNat_leBytes, Nat.mod_eq_of_lt ((ZMod.val_lt v).trans secpP_lt)]
  exact ⟨h, by rw [coefRes, h, ZMod.natCast_zmod_val]⟩

theorem evalLC_number (l : List (ℕ × ZMod secpP)) (w : List (ZMod secpP)) :
    evalLC coefRes (l.map fun t => (t.1, swapped t.2.val)) w = numVal l w := by
  induction l with
  | nil => rfl
  | cons t l ih =>
    have e1 : evalLC coefRes ((t :: l).map fun t => (t.1, swapped t.2.val)) w =
        coefRes (swapped t.2.val) * w.getD t.1 0 + evalLC coefRes (l.map fun t => (t.1, swapped t.2.val)) w := by
      rw [List.map_cons]; unfold evalLC; rw [List.map_cons, List.sum_cons]
    have e2 : numVal (t :: l) w = w.getD t.1 0 * t.2 + numVal l w := by
      unfold numVal; rw [List.map_cons, List.sum_cons]
    rw [e1, e2, ih, (coefRes_swapped t.2).2, mul_comm]

/-- Signal `i` of a context of `m` signals. -/
def sigAt {m : ℕ} (x : Fin m → ZMod secpP) (i : ℕ) : ZMod secpP := if h : i < m then x ⟨i, h⟩ else 0

theorem aff_sigAt {m : ℕ} (i : ℕ) : Aff 2 (fun x : Fin m → ZMod secpP => sigAt x i) := by
  unfold sigAt
  by_cases h : i < m
  · simp only [h, dite_true]
    exact (Aff.var _).mono (by norm_num)
  · simp only [h, dite_false]
    exact (Aff.const _).mono (by norm_num)

/-- A relation with constraints has constraints over the wires of `wireValues`. -/
theorem numbered_of {d n : ℕ} {R : (s root Tx Ty Ux Uy : ZMod secpP) → (path sib : ℕ → ZMod secpP) → Prop}
    (hcongr : ∀ s root Tx Ty Ux Uy path sib path' sib', (∀ i < d, path i = path' i ∧ sib i = sib' i) →
      (R s root Tx Ty Ux Uy path sib ↔ R s root Tx Ty Ux Uy path' sib'))
    (h : R1 n (fun x : Fin (6 + 2 * d) → ZMod secpP => R (sigAt x 5) (sigAt x 0) (sigAt x 1) (sigAt x 2) (sigAt x 3)
      (sigAt x 4) (fun i => sigAt x (6 + i)) (fun i => sigAt x (6 + d + i)))) :
    ∃ (k : ℕ) (cs : List (List (ℕ × ZMod secpP) × List (ℕ × ZMod secpP) × List (ℕ × ZMod secpP))), k ≤ n ∧ cs.length ≤ n ∧
      (cs.map fun c => c.1.length + c.2.1.length + c.2.2.length).sum ≤ n ∧
      (∀ c ∈ cs, ∀ t ∈ c.1 ++ c.2.1 ++ c.2.2, t.1 < 7 + 2 * d + k) ∧
      ∀ s root Tx Ty Ux Uy path sib, R s root Tx Ty Ux Uy path sib ↔ ∃ y : List (ZMod secpP), y.length = k ∧ ∀ c ∈ cs,
        numVal c.1 (wireValues d s root Tx Ty Ux Uy path sib y) * numVal c.2.1 (wireValues d s root Tx Ty Ux Uy path sib y) =
          numVal c.2.2 (wireValues d s root Tx Ty Ux Uy path sib y) := by
  obtain ⟨k, cs, h1, h2, h3, h4, h5⟩ := h.number
  refine ⟨k, cs, h1, h2, h3, fun c hc t ht => by have := h4 c hc t ht; omega, ?_⟩
  intro s root Tx Ty Ux Uy path sib
  let x : Fin (6 + 2 * d) → ZMod secpP := fun i =>
    ([root, Tx, Ty, Ux, Uy, s] ++ (List.range d).map path ++ (List.range d).map sib).getD i 0
  have hx : List.ofFn x = [root, Tx, Ty, Ux, Uy, s] ++ (List.range d).map path ++ (List.range d).map sib := by
    refine List.ext_getElem (by simp; omega) fun i hi hi' => ?_
    rw [List.getElem_ofFn]
    simp only [x]
    rw [List.getD_eq_getElem?_getD, List.getElem?_eq_getElem hi', Option.getD_some]
  have hsig : ∀ i < 6 + 2 * d, sigAt x i =
      ([root, Tx, Ty, Ux, Uy, s] ++ (List.range d).map path ++ (List.range d).map sib).getD i 0 := by
    intro i hi
    rw [sigAt, dif_pos hi]
  have hpath : ∀ i < d, sigAt x (6 + i) = path i := by
    intro i hi
    rw [hsig _ (by omega), List.getD_eq_getElem?_getD, List.append_assoc, List.getElem?_append_right (by simp),
      List.getElem?_append_left (by simp; omega)]
    simp [hi]
  have hsib : ∀ i < d, sigAt x (6 + d + i) = sib i := by
    intro i hi
    rw [hsig _ (by omega), List.getD_eq_getElem?_getD, List.getElem?_append_right (by simp; omega),
      show 6 + d + i - ([root, Tx, Ty, Ux, Uy, s] ++ (List.range d).map path).length = i by simp; omega]
    simp [hi]
  have key := h5 x
  have hnum : ∀ i < 6, sigAt x i = [root, Tx, Ty, Ux, Uy, s].getD i 0 := by
    intro i hi
    rw [hsig _ (by omega), List.getD_eq_getElem?_getD, List.append_assoc, List.getElem?_append_left (by simpa using hi),
      ← List.getD_eq_getElem?_getD]
  rw [hnum 0 (by norm_num), hnum 1 (by norm_num), hnum 2 (by norm_num), hnum 3 (by norm_num), hnum 4 (by norm_num),
    hnum 5 (by norm_num)] at key
  refine (hcongr _ _ _ _ _ _ _ _ _ _ fun i hi => ⟨(hpath i hi).symm, (hsib i hi).symm⟩).trans (key.trans ?_)
  rw [hx]
  rfl

theorem systemFor_of {d n : ℕ} {R : (s root Tx Ty Ux Uy : ZMod secpP) → (path sib : ℕ → ZMod secpP) → Prop}
    (hcongr : ∀ s root Tx Ty Ux Uy path sib path' sib', (∀ i < d, path i = path' i ∧ sib i = sib' i) →
      (R s root Tx Ty Ux Uy path sib ↔ R s root Tx Ty Ux Uy path' sib'))
    (h : R1 n (fun x : Fin (6 + 2 * d) → ZMod secpP => R (sigAt x 5) (sigAt x 0) (sigAt x 1) (sigAt x 2) (sigAt x 3)
      (sigAt x 4) (fun i => sigAt x (6 + i)) (fun i => sigAt x (6 + d + i))))
    (hn : n < 2 ^ 25) (hd : d ≤ 32) : ∃ rc, SystemFor d R rc := by
  obtain ⟨k, cs, h1, h2, h3, h4, h5⟩ := numbered_of hcongr h
  let enc : List (ℕ × ZMod secpP) → List (ℕ × ℕ) := fun l => l.map fun t => (t.1, swapped t.2.val)
  refine ⟨⟨6, 1 + (6 + 2 * d) + k - 6, 7 + 2 * d + k, cs.map fun c => (enc c.1, enc c.2.1, enc c.2.2)⟩, ?_, ?_, ?_, ?_, ?_⟩
  · intro c hc t ht
    obtain ⟨c', hc', rfl⟩ := List.mem_map.1 hc
    simp only [enc, ← List.map_append] at ht
    obtain ⟨u, hu, rfl⟩ := List.mem_map.1 ht
    exact ⟨h4 c' hc' u hu, by rw [(coefRes_swapped u.2).1]; exact ZMod.val_lt _⟩
  · simp only
    omega
  · simp only [List.length_map]
    omega
  · simp only [List.map_map, Function.comp_def, enc, List.length_map]
    omega
  · intro s root Tx Ty Ux Uy path sib
    refine (h5 s root Tx Ty Ux Uy path sib).trans (exists_congr fun y => and_congr ?_ ?_)
    · simp [wireValues]
      omega
    · unfold ConsHold
      simp only [List.mem_map, forall_exists_index, and_imp, forall_apply_eq_imp_iff₂, toCon, enc, evalLC_number]

theorem merkle_congr {F : Type} [Field F] {d : ℕ} {l r : F} {p q p' q' : ℕ → F} (h : ∀ i < d, p i = p' i ∧ q i = q' i) :
    Circuit.MerkleTreeInclusionProof d l p q r ↔ Circuit.MerkleTreeInclusionProof d l p' q' r := by
  unfold Circuit.MerkleTreeInclusionProof Circuit.MerkleWith
  refine exists_congr fun hs => and_congr_right fun _ => and_congr_left fun _ => forall₂_congr fun i hi => ?_
  rw [(h i hi).1, (h i hi).2]

/-- C127: the public key membership circuit is a system of rank-1 constraints. -/
theorem membership_r1cs {d : ℕ} (hd : d ≤ 32) : ∃ rc, SystemFor d (Circuit.PubKeyMembership d) rc := by
  refine systemFor_of (n := 32 * 26000 + 200000) ?_ ?_ (by norm_num) hd
  · intro s root Tx Ty Ux Uy path sib path' sib' h
    unfold Circuit.PubKeyMembership Circuit.PubKeyMembershipWith
    simp only [merkle_congr h]
  · exact (Circuit.r1_pubKeyMembership d (aff_sigAt _) (aff_sigAt _) (aff_sigAt _) (aff_sigAt _) (aff_sigAt _)
      (fun _ => aff_sigAt _) (fun _ => aff_sigAt _)).mono (by omega)

/-- C127: the address membership circuit is a system of rank-1 constraints. -/
theorem addr_membership_r1cs {d : ℕ} (hd : d ≤ 32) : ∃ rc, SystemFor d (Circuit.AddrMembership d) rc := by
  refine systemFor_of (n := 32 * 26000 + 13000000) ?_ ?_ (by norm_num) hd
  · intro s root Tx Ty Ux Uy path sib path' sib' h
    unfold Circuit.AddrMembership Circuit.AddrMembershipWith
    simp only [merkle_congr h]
  · exact (Circuit.r1_addrMembership d (aff_sigAt _) (aff_sigAt _) (aff_sigAt _) (aff_sigAt _) (aff_sigAt _)
      (fun _ => aff_sigAt _) (fun _ => aff_sigAt _)).mono (by omega)

/-! ### C128: from a signature and a tree to an accepted proof -/

theorem matTriples_length (sel : CircomConstraint → List (Nat × Nat)) (cs : List CircomConstraint) :
    (matTriples sel cs).length = (cs.map fun c => (sel c).length).sum := by
  rw [matTriples_bytes, triplesOf_length, List.map_map]
  simp [Function.comp_def, coreBytes]

/-- Such a system converts to a circuit of Spartan that fits a machine of 32 bits. -/
theorem systemFor_inst {d : ℕ} {R : (s root Tx Ty Ux Uy : ZMod secpP) → (path sib : ℕ → ZMod secpP) → Prop} {rc : CircomR1CS}
    (h : SystemFor d R rc) {bits : ℕ} (h32 : 32 ≤ bits) {digest : R1CS Sc → List UInt8}
    (hdig : ∀ i, (digest i).length < 2 ^ 32) :
    ∃ I, convertToSpartan (codec digest) rc 5 = .ok I ∧ (wire bits).okInst I ∧ I.inst.numVars ≤ 2 ^ 62 := by
  obtain ⟨h1, h2, h3, h4, -⟩ := h
  have hconv : Convertible (codec digest) rc := by
    intro c hc t ht
    obtain ⟨a, e, -⟩ := (machine_from_bytes digest (coreToRepr_length t.2)).1 (h1 c hc t ht).2
    exact ⟨(h1 c hc t ht).1, by rw [e]; rfl⟩
  obtain ⟨I, hI, hnew⟩ := convert_eq (numPub := 5) hconv
  have hm : ∀ sel : CircomConstraint → List (Nat × Nat), (∀ c, (sel c).length ≤ c.1.length + c.2.1.length + c.2.2.length) →
      (matTriples sel rc.constraints).length < 2 ^ 26 := by
    intro sel hs
    rw [matTriples_length]
    exact lt_of_le_of_lt (List.sum_le_sum fun c _ => hs c) h4
  have hA := hm (·.1) (fun c => by omega)
  have hB := hm (·.2.1) (fun c => by omega)
  have hC := hm (·.2.2) (fun c => by omega)
  have hvp : varsPadded rc.numVariables 5 ≤ 2 ^ 30 := by
    rw [varsPadded_eq]
    exact nextPow2_le (by omega)
  have hcp : consPadded rc.constraints.length ≤ 2 ^ 30 := consPadded_le (by omega) (by norm_num)
  have hbits : 2 ^ 32 ≤ 2 ^ (wire bits).bits := Nat.pow_le_pow_right (by norm_num) h32
  refine ⟨I, hI, ⟨okR1CS_of_new hnew ?_ ?_, ?_⟩, ?_⟩
  · have : max (matTriples (·.1) rc.constraints).length (max (matTriples (·.2.1) rc.constraints).length
        (matTriples (·.2.2) rc.constraints).length) ≤ 2 ^ 31 := by
      rw [max_le_iff, max_le_iff]; exact ⟨by omega, by omega, by omega⟩
    omega
  · omega
  · obtain ⟨-, -, -, rfl⟩ := new_ok_entries hnew
    exact lt_of_lt_of_le (hdig _) hbits
  · obtain ⟨-, -, -, rfl⟩ := new_ok_entries hnew
    exact hvp.trans (by norm_num)

/-- The signals that the circuit gets from the inputs of the witness generator. -/
def inputSignals (d : ℕ) (w : WitnessInput) (y : List (ZMod secpP)) : List (ZMod secpP) :=
  wireValues d w.s w.root w.Tx w.Ty w.Ux w.Uy (fun k => (w.pathIndices.getD k 0 : ℕ))
    (fun k => ((w.siblings.getD k none).getD 0 : ℕ)) y

/-- A witness generator for the inputs `H` and the constraints `rc`: for such inputs it writes a file with values that
begin with the signals of the inputs and satisfy the constraints. -/
def Generates (d : ℕ) (H : WitnessInput → Prop) (rc : CircomR1CS)
    (values : WitnessInput → List ℕ) (witnessGen : WitnessInput → Option (List UInt8)) : Prop :=
  ∀ w, H w →
    (∃ version prime, version ≤ 2 ∧ prime.length = 32 ∧
      witnessGen w = some (encWtns version prime (32 * (values w).length) (values w))) ∧
    (∀ x ∈ values w, x < secpP) ∧ (values w).length = rc.numVariables ∧
    (∃ y, (values w).map (fun x : ℕ => (x : ZMod secpP)) = inputSignals d w y) ∧
    ConsHold coefRes (rc.constraints.map toCon) ((values w).map fun x : ℕ => (x : ZMod secpP))

/-- C128: a system of constraints for the circuit has a witness generator for all inputs of which the circuit holds. -/
theorem generator_exists {d : ℕ} {R : (s root Tx Ty Ux Uy : ZMod secpP) → (path sib : ℕ → ZMod secpP) → Prop}
    {rc : CircomR1CS} (h : SystemFor d R rc) : ∃ values witnessGen,
      Generates d (fun w => R w.s w.root w.Tx w.Ty w.Ux w.Uy (fun k => (w.pathIndices.getD k 0 : ℕ))
        (fun k => ((w.siblings.getD k none).getD 0 : ℕ))) rc values witnessGen := by
  classical
  let values : WitnessInput → List ℕ := fun w =>
    if hw : ∃ y, (inputSignals d w y).length = rc.numVariables ∧
      ConsHold coefRes (rc.constraints.map toCon) (inputSignals d w y) then (inputSignals d w hw.choose).map ZMod.val else []
  refine ⟨values, fun w => some (encWtns 2 (List.replicate 32 0) (32 * (values w).length) (values w)), fun w hR => ?_⟩
  have hw := (h.2.2.2.2 _ _ _ _ _ _ _ _).1 hR
  change ∃ y, (inputSignals d w y).length = rc.numVariables ∧
      ConsHold coefRes (rc.constraints.map toCon) (inputSignals d w y) at hw
  have hv : values w = (inputSignals d w hw.choose).map ZMod.val := dif_pos hw
  have hm : (values w).map (fun x : ℕ => (x : ZMod secpP)) = inputSignals d w hw.choose := by
    rw [hv, List.map_map]
    conv_rhs => rw [← List.map_id (inputSignals d w hw.choose)]
    exact List.map_congr_left fun x _ => ZMod.natCast_zmod_val x
  refine ⟨⟨2, _, le_refl 2, List.length_replicate, rfl⟩, ?_, ?_, ⟨_, hm⟩, ?_⟩
  · rw [hv]
    intro x hx
    obtain ⟨z, -, rfl⟩ := List.mem_map.1 hx
    exact ZMod.val_lt z
  · rw [hv, List.length_map]
    exact hw.choose_spec.1
  · rw [hm]
    exact hw.choose_spec.2

/-- A system for a circuit that holds of some inputs and not of all paths is not empty. -/
theorem systemFor_ne {d : ℕ} {R : (s root Tx Ty Ux Uy : ZMod secpP) → (path sib : ℕ → ZMod secpP) → Prop}
    {rc : CircomR1CS} (h : SystemFor d R rc) {s root Tx Ty Ux Uy : ZMod secpP} {path sib path' : ℕ → ZMod secpP}
    (h1 : R s root Tx Ty Ux Uy path sib) (h2 : ¬ R s root Tx Ty Ux Uy path' sib) : rc.constraints ≠ [] := by
  intro h0
  obtain ⟨y, hy, -⟩ := (h.2.2.2.2 _ _ _ _ _ _ _ _).1 h1
  refine h2 ((h.2.2.2.2 _ _ _ _ _ _ _ _).2 ⟨y, ?_, ?_⟩)
  · simpa [wireValues] using hy
  · rw [h0]
    intro c hc
    simp at hc

theorem merkle_bit {d : ℕ} (hd : 1 ≤ d) {l r : ZMod secpP} {q : ℕ → ZMod secpP} :
    ¬ Circuit.MerkleTreeInclusionProof d l (fun _ => 2) q r := by
  rintro ⟨hs, -, h, -⟩
  have := (h 0 hd).1
  exact absurd this (by decide +kernel)

/-- From the inputs of the prover to an accepted proof, for any circuit. -/
theorem machine_lib_accepts (f : Pt.Formulas) {bits : ℕ} (h32 : 32 ≤ bits) (h64 : bits ≤ 64) {digest : R1CS Sc → List UInt8}
    {d : ℕ} {R : (s root Tx Ty Ux Uy : ZMod secpP) → (path sib : ℕ → ZMod secpP) → Prop} {rc : CircomR1CS}
    (hsys : SystemFor d R rc) (hne : rc.constraints ≠ []) {I : Inst Sc} (hI : convertToSpartan (codec digest) rc 5 = .ok I)
    (hok : (wire bits).okInst I) (hsz : I.inst.numVars ≤ 2 ^ 62)
    {values : WitnessInput → List ℕ} {witnessGen : WitnessInput → Option (List UInt8)}
    {H : WitnessInput → Prop} (hgen : Generates d H rc values witnessGen) {sig msgHash : List UInt8} {mp : MerkleProof} {w : WitnessInput}
    {p : PublicInput} (hin : proverInputs sig msgHash mp = some (w, p))
    (hH : H w) (hread : ∀ x ∈ values w, Readable x)
    (hfit : PubFits p.circuitPubInput) (hswap : ∀ x ∈ [p.circuitPubInput.merkleRoot, p.circuitPubInput.Tx,
      p.circuitPubInput.Ty, p.circuitPubInput.Ux, p.circuitPubInput.Uy], swapped x < secpP)
    {ser : List UInt8} (hser : PublicInput.deserialize ser = some p) (hver : verifyEffEcdsaPubInput p = some true)
    (label : List UInt8) (tape : Tape Sc) :
    ∃ wit pub, witnessGen w = some wit ∧ p.circuitPubInput.serialize = some pub ∧
      ∀ hash : Tr Sc EncPt → Sc, ∃ pf T,
      wasmProveRun ((wire bits).wasmEnv ((env f "nizk_example").withHash (nonzeroFold hash)) (src f) (codec digest))
        label [] tape ((wire bits).fInst.enc I) wit pub = .ok (pf, T) ∧ folds T ≤ 31 ∧
      (NoZeroFold hash T → ∃ proof,
        Lib.prove witnessGen (wasmProve ((wire bits).wasmEnv ((env f "nizk_example").withHash hash) (src f) (codec digest))
          label [] tape ((wire bits).fInst.enc I)) sig msgHash mp = some (proof, p) ∧
        Lib.verify (wasmVerify ((wire bits).wasmEnv ((env f "nizk_example").withHash hash) (src f) (codec digest))
          label [] ((wire bits).fInst.enc I) proof) ser = some true) := by
  obtain ⟨⟨version, prime, hv, hpr, hw⟩, g1, g2, -, g4⟩ := hgen w hH
  obtain ⟨pub, hb, hch⟩ := pub_input_chunks hfit
  have hlen : 5 * 32 ≤ pub.length := by
    obtain ⟨bs', hb', hl, -⟩ := circuit_pub_input_roundtrip hfit
    rw [hb] at hb'
    cases hb'
    omega
  refine ⟨_, pub, hw, hb, fun hash => ?_⟩
  obtain ⟨pf, T, e1, e3, e2⟩ := machine_prove_verify_hash f h32 h64 hsys.1 hne hI hok hsz hlen (by
    rw [hch]
    intro b hb
    simp only [List.mem_cons, List.not_mem_nil, or_false] at hb
    rcases hb with rfl | rfl | rfl | rfl | rfl <;> exact hswap _ (by simp)) hv hpr
    (by rw [g2]; exact lt_trans hsys.2.1 (by norm_num)) g2 (fun x hx => ⟨hread x hx, g1 x hx⟩) g4 label tape hash
  refine ⟨pf, T, e1, e3, fun hz => ⟨_, prove_of hin hw hb (e2 hz).1, ?_⟩⟩
  exact lib_verify_iff.mpr ⟨_, pub, hser, hver, hb, (e2 hz).2⟩

/-- C128, for any hash in the place of the one of the program: a member of a tree of keys. -/
theorem member_machine_hash_partial (f : Pt.Formulas) {bits : ℕ} (h32 : 32 ≤ bits) (h64 : bits ≤ 64)
    {digest : R1CS Sc → List UInt8} (hdig : ∀ i, (digest i).length < 2 ^ 32)
    -- the constraints and the witness generator
    {d : ℕ} (hd1 : 1 ≤ d) (hd32 : d ≤ 32) {rc : CircomR1CS} (hsys : SystemFor d (Circuit.PubKeyMembership d) rc)
    {values : WitnessInput → List ℕ} {witnessGen : WitnessInput → Option (List UInt8)}
    (hgen : Generates d (fun w => ∃ X Y, HonestInputs d w X Y) rc values witnessGen)
    -- the tree and the proof
    {ops : List TreeOp} (hops : FieldLeaves ops) {t : MerkleTree} {b : List Bool} (ht : treeAfter d ops = some (t, b))
    {i : ℕ} {mp : MerkleProof} (hmp : t.createProof i = some mp)
    -- the key and the signature
    {Q R : Secp} {r s v : ℕ} {sig msgHash : List UInt8} (hr : r < secpN) (hs : s < secpN) (hv : v < 256)
    (hsig : fromSig sig = some (r, s, v)) (hm : msgNum msgHash ≠ 0)
    (hS : SignedWith Q R (msgNum msgHash) r s (decide (v % 2 = 0)))
    (hleaf : t.leaves[i]? = some (hashPubKey (beBytes 32 (xy Q).1.val ++ beBytes 32 (xy Q).2.val)))
    -- the exceptional cases
    (hlow : ¬ (2 ^ 128 ≤ s + Circuit.tQlo ∧ s < 2 ^ 128))
    (hz : ¬ FalseZero (s • effT r R) (effU r (msgNum msgHash))) (hd : s • effT r R ≠ effU r (msgNum msgHash))
    (hreg : Regular (effT r R) ((s + Circuit.tQ) % Circuit.q))
    (hswap : ∀ x ∈ [t.root, (xy (effT r R)).1.val, (xy (effT r R)).2.val, (xy (effU r (msgNum msgHash))).1.val,
      (xy (effU r (msgNum msgHash))).2.val], swapped x < secpP)
    (hread : ∀ w p, proverInputs sig msgHash mp = some (w, p) → (∃ X Y, HonestInputs d w X Y) →
      ∀ x ∈ values w, Readable x)
    (label : List UInt8) (tape : Tape Sc) :
    ∃ I w p ser wit pub, convertToSpartan (codec digest) rc 5 = .ok I ∧
      proverInputs sig msgHash mp = some (w, p) ∧ p.circuitPubInput.merkleRoot = t.root ∧ p.msgHash = msgHash ∧
      p.serialize = some ser ∧ witnessGen w = some wit ∧ p.circuitPubInput.serialize = some pub ∧
      ∀ hash : Tr Sc EncPt → Sc, ∃ pf T,
      wasmProveRun ((wire bits).wasmEnv ((env f "nizk_example").withHash (nonzeroFold hash)) (src f) (codec digest))
        label [] tape ((wire bits).fInst.enc I) wit pub = .ok (pf, T) ∧ folds T ≤ 31 ∧
      (NoZeroFold hash T → ∃ proof,
        Lib.prove witnessGen (wasmProve ((wire bits).wasmEnv ((env f "nizk_example").withHash hash) (src f) (codec digest))
          label [] tape ((wire bits).fInst.enc I)) sig msgHash mp = some (proof, p) ∧
        Lib.verify (wasmVerify ((wire bits).wasmEnv ((env f "nizk_example").withHash hash) (src f) (codec digest))
          label [] ((wire bits).fInst.enc I) proof) ser = some true) := by
  obtain ⟨hT0, hU0, hQ, hin, hver, hser⟩ := prover_inputs (mp := mp) hr hv hsig hm hS
  generalize effT r R = T at *
  generalize effU r (msgNum msgHash) = U at *
  have hroot : mp.root = t.root := by
    unfold MerkleTree.createProof at hmp
    split_ifs at hmp
    rw [← Option.some.inj hmp]
  have hroot_lt : t.root < 2 ^ 256 := (tree_root_lt hd1 hd32 hops ht).trans secpP_lt_256
  have hsP : s < secpP := hs.trans (by decide +kernel)
  have hsv : ((s : ℕ) : ZMod secpP).val = s := by rw [ZMod.val_natCast, Nat.mod_eq_of_lt hsP]
  obtain ⟨k, hk, hkb, hmem⟩ := tree_member_proves_partial hd1 hd32 hops ht T U hT0 (s : ZMod secpP)
    (by rw [hsv]; exact hlow) (by rw [hsv]; exact hz) (by rw [hsv]; exact fun h => absurd h hd)
    (by rw [hsv, ← hQ]; exact hleaf) hmp
  obtain ⟨kBits, kb1, kb2⟩ := hmem (by rw [honest_k hsP hlow hk hkb]; exact hreg)
  obtain ⟨ser, hser1, hser2⟩ := hser (by rw [hroot]; exact hroot_lt)
  have hlt : ∀ x : ZMod secpP, x.val < 2 ^ 256 := fun x => (ZMod.val_lt x).trans secpP_lt_256
  have hfit : PubFits ⟨mp.root, (xy T).1.val, (xy T).2.val, (xy U).1.val, (xy U).2.val⟩ :=
    ⟨by rw [hroot]; exact hroot_lt, hlt _, hlt _, hlt _, hlt _⟩
  have hR : Circuit.PubKeyMembership d (s : ZMod secpP) (mp.root : ZMod secpP) (((xy T).1.val : ℕ) : ZMod secpP)
      (((xy T).2.val : ℕ) : ZMod secpP) (((xy U).1.val : ℕ) : ZMod secpP) (((xy U).2.val : ℕ) : ZMod secpP)
      (fun k => (mp.pathIndices.getD k 0 : ℕ)) (fun k => ((mp.siblings.getD k none).getD 0 : ℕ)) := by
    simp only [ZMod.natCast_zmod_val, hroot]
    exact ⟨kBits, _, _, kb2⟩
  obtain ⟨I, hI, hok, hsz⟩ := systemFor_inst hsys h32 hdig
  have hne : rc.constraints ≠ [] := systemFor_ne hsys hR (path' := fun _ => 2) (by
    rintro ⟨kBits, X, Y, -, _, _, -, h, -⟩
    exact merkle_bit hd1 h)
  have hH : ∃ X Y, HonestInputs d ⟨s, mp.root, mp.siblings, mp.pathIndices, (xy T).1.val, (xy T).2.val, (xy U).1.val,
      (xy U).2.val⟩ X Y := ⟨(xy ((s : ZMod secpP).val • T + U)).1, (xy ((s : ZMod secpP).val • T + U)).2, kBits, kb1, by
    simp only [ZMod.natCast_zmod_val, hroot]
    exact kb2⟩
  obtain ⟨wit, pub, e1, e2, e3⟩ := machine_lib_accepts f h32 h64 hsys hne hI hok hsz hgen hin hH
    (hread _ _ hin hH) hfit (by rw [hroot]; exact hswap) hser2 hver label tape
  exact ⟨I, _, _, ser, wit, pub, hI, hin, hroot, rfl, hser1, e1, e2, e3⟩

/-- C128: a member of a tree of keys with a signature gets a proof from the prover, run on a system of constraints for the
circuit and any witness generator for it, with the limbs, the points and the transcript of the program; the verifier accepts
the proof with the serialized public input, if no folding challenge of the run is zero. The exceptional cases are those of
C85; what is missing is that they do not occur. -/
theorem member_machine_partial (f : Pt.Formulas) {bits : ℕ} (h32 : 32 ≤ bits) (h64 : bits ≤ 64)
    {digest : R1CS Sc → List UInt8} (hdig : ∀ i, (digest i).length < 2 ^ 32)
    -- the constraints and the witness generator
    {d : ℕ} (hd1 : 1 ≤ d) (hd32 : d ≤ 32) {rc : CircomR1CS} (hsys : SystemFor d (Circuit.PubKeyMembership d) rc)
    {values : WitnessInput → List ℕ} {witnessGen : WitnessInput → Option (List UInt8)}
    (hgen : Generates d (fun w => ∃ X Y, HonestInputs d w X Y) rc values witnessGen)
    -- the tree and the proof
    {ops : List TreeOp} (hops : FieldLeaves ops) {t : MerkleTree} {b : List Bool} (ht : treeAfter d ops = some (t, b))
    {i : ℕ} {mp : MerkleProof} (hmp : t.createProof i = some mp)
    -- the key and the signature
    {Q R : Secp} {r s v : ℕ} {sig msgHash : List UInt8} (hr : r < secpN) (hs : s < secpN) (hv : v < 256)
    (hsig : fromSig sig = some (r, s, v)) (hm : msgNum msgHash ≠ 0)
    (hS : SignedWith Q R (msgNum msgHash) r s (decide (v % 2 = 0)))
    (hleaf : t.leaves[i]? = some (hashPubKey (beBytes 32 (xy Q).1.val ++ beBytes 32 (xy Q).2.val)))
    -- the exceptional cases
    (hlow : ¬ (2 ^ 128 ≤ s + Circuit.tQlo ∧ s < 2 ^ 128))
    (hz : ¬ FalseZero (s • effT r R) (effU r (msgNum msgHash))) (hd : s • effT r R ≠ effU r (msgNum msgHash))
    (hreg : Regular (effT r R) ((s + Circuit.tQ) % Circuit.q))
    (hswap : ∀ x ∈ [t.root, (xy (effT r R)).1.val, (xy (effT r R)).2.val, (xy (effU r (msgNum msgHash))).1.val,
      (xy (effU r (msgNum msgHash))).2.val], swapped x < secpP)
    (hread : ∀ w p, proverInputs sig msgHash mp = some (w, p) → (∃ X Y, HonestInputs d w X Y) →
      ∀ x ∈ values w, Readable x)
    (label : List UInt8) (tape : Tape Sc) :
    ∃ I w p ser wit pub pf T, convertToSpartan (codec digest) rc 5 = .ok I ∧
      proverInputs sig msgHash mp = some (w, p) ∧ p.circuitPubInput.merkleRoot = t.root ∧ p.msgHash = msgHash ∧
      p.serialize = some ser ∧ witnessGen w = some wit ∧ p.circuitPubInput.serialize = some pub ∧
      wasmProveRun ((wire bits).wasmEnv ((env f "nizk_example").withHash (nonzeroFold (env f "nizk_example").hash))
        (src f) (codec digest)) label [] tape ((wire bits).fInst.enc I) wit pub = .ok (pf, T) ∧
      (NoZeroFold (env f "nizk_example").hash T → ∃ proof,
        Lib.prove witnessGen (wasmProve (wasm f bits digest) label [] tape ((wire bits).fInst.enc I)) sig msgHash mp =
          some (proof, p) ∧
        Lib.verify (wasmVerify (wasm f bits digest) label [] ((wire bits).fInst.enc I) proof) ser = some true) := by
  obtain ⟨I, w, p, ser, wit, pub, e1, e2, e3, e4, e5, e6, e7, e8⟩ := member_machine_hash_partial f h32 h64 hdig hd1 hd32 hsys hgen hops
    ht hmp hr hs hv hsig hm hS hleaf hlow hz hd hreg hswap hread label tape
  obtain ⟨pf, T, g1, -, g2⟩ := e8 (env f "nizk_example").hash
  exact ⟨I, w, p, ser, wit, pub, pf, T, e1, e2, e3, e4, e5, e6, e7, g1, g2⟩

/-- C128, for any hash in the place of the one of the program: a member of a tree of addresses. -/
theorem address_machine_hash_partial (f : Pt.Formulas) {bits : ℕ} (h32 : 32 ≤ bits) (h64 : bits ≤ 64)
    {digest : R1CS Sc → List UInt8} (hdig : ∀ i, (digest i).length < 2 ^ 32)
    -- the constraints and the witness generator
    {d : ℕ} (hd1 : 1 ≤ d) (hd32 : d ≤ 32) {rc : CircomR1CS} (hsys : SystemFor d (Circuit.AddrMembership d) rc)
    {values : WitnessInput → List ℕ} {witnessGen : WitnessInput → Option (List UInt8)}
    (hgen : Generates d (fun w => ∃ X Y, HonestAddrInputs d w X Y) rc values witnessGen)
    -- the tree and the proof
    {ops : List TreeOp} (hops : FieldLeaves ops) {t : MerkleTree} {b : List Bool} (ht : treeAfter d ops = some (t, b))
    {i : ℕ} {mp : MerkleProof} (hmp : t.createProof i = some mp)
    -- the key and the signature
    {Q R : Secp} {r s v : ℕ} {sig msgHash : List UInt8} (hr : r < secpN) (hs : s < secpN) (hv : v < 256)
    (hsig : fromSig sig = some (r, s, v)) (hm : msgNum msgHash ≠ 0)
    (hS : SignedWith Q R (msgNum msgHash) r s (decide (v % 2 = 0)))
    (hleaf : t.leaves[i]? = some (ethAddress (xy Q).1.val (xy Q).2.val))
    -- the exceptional cases
    (hlow : ¬ (2 ^ 128 ≤ s + Circuit.tQlo ∧ s < 2 ^ 128))
    (hz : ¬ FalseZero (s • effT r R) (effU r (msgNum msgHash))) (hd : s • effT r R ≠ effU r (msgNum msgHash))
    (hreg : Regular (effT r R) ((s + Circuit.tQ) % Circuit.q))
    (hswap : ∀ x ∈ [t.root, (xy (effT r R)).1.val, (xy (effT r R)).2.val, (xy (effU r (msgNum msgHash))).1.val,
      (xy (effU r (msgNum msgHash))).2.val], swapped x < secpP)
    (hread : ∀ w p, proverInputs sig msgHash mp = some (w, p) → (∃ X Y, HonestAddrInputs d w X Y) →
      ∀ x ∈ values w, Readable x)
    (label : List UInt8) (tape : Tape Sc) :
    ∃ I w p ser wit pub, convertToSpartan (codec digest) rc 5 = .ok I ∧
      proverInputs sig msgHash mp = some (w, p) ∧ p.circuitPubInput.merkleRoot = t.root ∧ p.msgHash = msgHash ∧
      p.serialize = some ser ∧ witnessGen w = some wit ∧ p.circuitPubInput.serialize = some pub ∧
      ∀ hash : Tr Sc EncPt → Sc, ∃ pf T,
      wasmProveRun ((wire bits).wasmEnv ((env f "nizk_example").withHash (nonzeroFold hash)) (src f) (codec digest))
        label [] tape ((wire bits).fInst.enc I) wit pub = .ok (pf, T) ∧ folds T ≤ 31 ∧
      (NoZeroFold hash T → ∃ proof,
        Lib.prove witnessGen (wasmProve ((wire bits).wasmEnv ((env f "nizk_example").withHash hash) (src f) (codec digest))
          label [] tape ((wire bits).fInst.enc I)) sig msgHash mp = some (proof, p) ∧
        Lib.verify (wasmVerify ((wire bits).wasmEnv ((env f "nizk_example").withHash hash) (src f) (codec digest))
          label [] ((wire bits).fInst.enc I) proof) ser = some true) := by
  obtain ⟨hT0, hU0, hQ, hin, hver, hser⟩ := prover_inputs (mp := mp) hr hv hsig hm hS
  generalize effT r R = T at *
  generalize effU r (msgNum msgHash) = U at *
  have hroot : mp.root = t.root := by
    unfold MerkleTree.createProof at hmp
    split_ifs at hmp
    rw [← Option.some.inj hmp]
  have hroot_lt : t.root < 2 ^ 256 := (tree_root_lt hd1 hd32 hops ht).trans secpP_lt_256
  have hsP : s < secpP := hs.trans (by decide +kernel)
  have hsv : ((s : ℕ) : ZMod secpP).val = s := by rw [ZMod.val_natCast, Nat.mod_eq_of_lt hsP]
  obtain ⟨k, hk, hkb, hmem⟩ := tree_address_proves_partial hd1 hd32 hops ht T U hT0 (s : ZMod secpP)
    (by rw [hsv]; exact hlow) (by rw [hsv]; exact hz) (by rw [hsv]; exact fun h => absurd h hd)
    (by rw [hsv, ← hQ]; exact hleaf) hmp
  obtain ⟨kBits, kb1, kb2⟩ := hmem (by rw [honest_k hsP hlow hk hkb]; exact hreg)
  obtain ⟨ser, hser1, hser2⟩ := hser (by rw [hroot]; exact hroot_lt)
  have hlt : ∀ x : ZMod secpP, x.val < 2 ^ 256 := fun x => (ZMod.val_lt x).trans secpP_lt_256
  have hfit : PubFits ⟨mp.root, (xy T).1.val, (xy T).2.val, (xy U).1.val, (xy U).2.val⟩ :=
    ⟨by rw [hroot]; exact hroot_lt, hlt _, hlt _, hlt _, hlt _⟩
  have hR : Circuit.AddrMembership d (s : ZMod secpP) (mp.root : ZMod secpP) (((xy T).1.val : ℕ) : ZMod secpP)
      (((xy T).2.val : ℕ) : ZMod secpP) (((xy U).1.val : ℕ) : ZMod secpP) (((xy U).2.val : ℕ) : ZMod secpP)
      (fun k => (mp.pathIndices.getD k 0 : ℕ)) (fun k => ((mp.siblings.getD k none).getD 0 : ℕ)) := by
    simp only [ZMod.natCast_zmod_val, hroot]
    exact ⟨kBits, _, _, _, kb2⟩
  obtain ⟨I, hI, hok, hsz⟩ := systemFor_inst hsys h32 hdig
  have hne : rc.constraints ≠ [] := systemFor_ne hsys hR (path' := fun _ => 2) (by
    rintro ⟨kBits, X, Y, a, -, -, _, h, -⟩
    exact merkle_bit hd1 h)
  have hH : ∃ X Y, HonestAddrInputs d ⟨s, mp.root, mp.siblings, mp.pathIndices, (xy T).1.val, (xy T).2.val, (xy U).1.val,
      (xy U).2.val⟩ X Y := ⟨(xy ((s : ZMod secpP).val • T + U)).1, (xy ((s : ZMod secpP).val • T + U)).2, kBits, kb1, by
    simp only [ZMod.natCast_zmod_val, hroot]
    exact kb2⟩
  obtain ⟨wit, pub, e1, e2, e3⟩ := machine_lib_accepts f h32 h64 hsys hne hI hok hsz hgen hin hH
    (hread _ _ hin hH) hfit (by rw [hroot]; exact hswap) hser2 hver label tape
  exact ⟨I, _, _, ser, wit, pub, hI, hin, hroot, rfl, hser1, e1, e2, e3⟩

/-- C128: the same for a member of a tree of addresses. -/
theorem address_machine_partial (f : Pt.Formulas) {bits : ℕ} (h32 : 32 ≤ bits) (h64 : bits ≤ 64)
    {digest : R1CS Sc → List UInt8} (hdig : ∀ i, (digest i).length < 2 ^ 32)
    -- the constraints and the witness generator
    {d : ℕ} (hd1 : 1 ≤ d) (hd32 : d ≤ 32) {rc : CircomR1CS} (hsys : SystemFor d (Circuit.AddrMembership d) rc)
    {values : WitnessInput → List ℕ} {witnessGen : WitnessInput → Option (List UInt8)}
    (hgen : Generates d (fun w => ∃ X Y, HonestAddrInputs d w X Y) rc values witnessGen)
    -- the tree and the proof
    {ops : List TreeOp} (hops : FieldLeaves ops) {t : MerkleTree} {b : List Bool} (ht : treeAfter d ops = some (t, b))
    {i : ℕ} {mp : MerkleProof} (hmp : t.createProof i = some mp)
    -- the key and the signature
    {Q R : Secp} {r s v : ℕ} {sig msgHash : List UInt8} (hr : r < secpN) (hs : s < secpN) (hv : v < 256)
    (hsig : fromSig sig = some (r, s, v)) (hm : msgNum msgHash ≠ 0)
    (hS : SignedWith Q R (msgNum msgHash) r s (decide (v % 2 = 0)))
    (hleaf : t.leaves[i]? = some (ethAddress (xy Q).1.val (xy Q).2.val))
    -- the exceptional cases
    (hlow : ¬ (2 ^ 128 ≤ s + Circuit.tQlo ∧ s < 2 ^ 128))
    (hz : ¬ FalseZero (s • effT r R) (effU r (msgNum msgHash))) (hd : s • effT r R ≠ effU r (msgNum msgHash))
    (hreg : Regular (effT r R) ((s + Circuit.tQ) % Circuit.q))
    (hswap : ∀ x ∈ [t.root, (xy (effT r R)).1.val, (xy (effT r R)).2.val, (xy (effU r (msgNum msgHash))).1.val,
      (xy (effU r (msgNum msgHash))).2.val], swapped x < secpP)
    (hread : ∀ w p, proverInputs sig msgHash mp = some (w, p) → (∃ X Y, HonestAddrInputs d w X Y) →
      ∀ x ∈ values w, Readable x)
    (label : List UInt8) (tape : Tape Sc) :
    ∃ I w p ser wit pub pf T, convertToSpartan (codec digest) rc 5 = .ok I ∧
      proverInputs sig msgHash mp = some (w, p) ∧ p.circuitPubInput.merkleRoot = t.root ∧ p.msgHash = msgHash ∧
      p.serialize = some ser ∧ witnessGen w = some wit ∧ p.circuitPubInput.serialize = some pub ∧
      wasmProveRun ((wire bits).wasmEnv ((env f "nizk_example").withHash (nonzeroFold (env f "nizk_example").hash))
        (src f) (codec digest)) label [] tape ((wire bits).fInst.enc I) wit pub = .ok (pf, T) ∧
      (NoZeroFold (env f "nizk_example").hash T → ∃ proof,
        Lib.prove witnessGen (wasmProve (wasm f bits digest) label [] tape ((wire bits).fInst.enc I)) sig msgHash mp =
          some (proof, p) ∧
        Lib.verify (wasmVerify (wasm f bits digest) label [] ((wire bits).fInst.enc I) proof) ser = some true) := by
  obtain ⟨I, w, p, ser, wit, pub, e1, e2, e3, e4, e5, e6, e7, e8⟩ := address_machine_hash_partial f h32 h64 hdig hd1 hd32 hsys hgen hops
    ht hmp hr hs hv hsig hm hS hleaf hlow hz hd hreg hswap hread label tape
  obtain ⟨pf, T, g1, -, g2⟩ := e8 (env f "nizk_example").hash
  exact ⟨I, w, p, ser, wit, pub, pf, T, e1, e2, e3, e4, e5, e6, e7, g1, g2⟩

end Spartan
