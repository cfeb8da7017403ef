import Verif.Lemmas.FoldCount
import Verif.Props.NIZK
import Verif.Props.SNARK
import Verif.Props.Convert
import Verif.Props.Bincode

/-!
C124: completeness for a fixed transcript hash.

The prover inverts the folding challenges (label `u`) of the inner-product argument and panics on a
zero.  C37, C44 and C69 state this exception for the oracle as a whole.  Here it is stated for the
challenges of the run in question, so that the statements apply to one given hash function, about
which nobody can show that it never returns zero.
-/

set_option linter.unusedSectionVars false

namespace Spartan
open Spec
variable {F G P : Type} [Field F] [AddCommGroup G] [Module F G]
  [DecidableEq F] [DecidableEq P] [DecidableEq G]

/-! ### Specification -/

/-- The oracle that answers one where the given oracle answers zero to a folding challenge. -/
def nonzeroFold (hash : Tr F P → F) : Tr F P → F := fun t =>
  match t.getLast? with
  | some (.chal l) => if l = "u" ∧ hash t = 0 then 1 else hash t
  | _ => hash t

/-- No folding challenge of the run with transcript `T` is zero. -/
def NoZeroFold (hash : Tr F P → F) (T : Tr F P) : Prop :=
  ∀ t, t ++ [.chal "u"] <+: T → hash (t ++ [.chal "u"]) ≠ 0

/-! ### Lemmas -/

theorem nonzeroFold_chal (hash : Tr F P → F) (t : Tr F P) (l : String) :
    nonzeroFold hash (t ++ [.chal l]) =
      if l = "u" ∧ hash (t ++ [.chal l]) = 0 then 1 else hash (t ++ [.chal l]) := by
  unfold nonzeroFold
  rw [List.getLast?_concat]

theorem nonzeroFold_ne (hash : Tr F P → F) (t : Tr F P) : nonzeroFold hash (t ++ [.chal "u"]) ≠ 0 := by
  rw [nonzeroFold_chal]
  split_ifs with h
  · exact one_ne_zero
  · exact fun e => h ⟨rfl, e⟩

theorem agree_nil (h h' : Tr F P → F) : Agree [] h h' := by
  intro t l hl
  rw [List.prefix_nil] at hl
  exact absurd hl (by simp)

theorem agree_of_noZero {hash : Tr F P → F} {T : Tr F P} (h : NoZeroFold hash T) :
    Agree T hash (nonzeroFold hash) := by
  intro t l hl
  rw [nonzeroFold_chal]
  split_ifs with hc
  · obtain ⟨rfl, h0⟩ := hc
    exact absurd h0 (h t hl)
  · rfl

/-! ### C124 -/

/-- C124: what a run returns depends on the hash only through the challenges drawn in that run.  If
the prover (or the verifier) of the NIZK succeeds with the hash `h'`, then its transcript extends the
initial one, and with any other hash that answers the challenges in it alike the result is the same. -/
theorem nizk_run_local {E : Env F G P} {h' : Tr F P → F} {I : Inst F} {vars inputs : List F}
    {gens : R1CSGens G} {tr : Tr F P} {tape : Tape F} :
    (∀ pf tr', NIZK.prove (E.withHash h') I vars inputs gens tr tape = .ok (pf, tr') → tr <+: tr' ∧
      ((∀ t l, t ++ [.chal l] <+: tr' → E.hash (t ++ [.chal l]) = h' (t ++ [.chal l])) →
        NIZK.prove E I vars inputs gens tr tape = .ok (pf, tr'))) ∧
    (∀ pf tr', NIZK.verify (E.withHash h') pf I inputs gens tr = .ok tr' → tr <+: tr' ∧
      ((∀ t l, t ++ [.chal l] <+: tr' → E.hash (t ++ [.chal l]) = h' (t ++ [.chal l])) →
        NIZK.verify E pf I inputs gens tr = .ok tr')) := by
  refine ⟨fun pf tr' h => ?_, fun pf tr' h => ?_⟩
  · refine ⟨?_, fun hag => (nizkProve_local hag I vars inputs gens tr tape _ h).2 List.prefix_rfl⟩
    exact (nizkProve_local (agree_nil E.hash h') I vars inputs gens tr tape _ h).1
  · refine ⟨?_, fun hag => (nizkV_local hag pf I inputs gens tr _ h).2 List.prefix_rfl⟩
    exact (nizkV_local (agree_nil E.hash h') pf I inputs gens tr _ h).1

/-- C124: the NIZK is complete for every hash function.  For every instance and satisfying assignment
there is a transcript `T`, that of the prover whose zero folding challenges are replaced by one, such
that, if no folding challenge in `T` is zero, the prover succeeds, absorbs `T`, and the verifier
accepts its proof.  `T` adds at most 31 folding challenges. -/
theorem nizk_complete_run (h2 : (2 : F) ≠ 0) (h3 : (3 : F) ≠ 0) {E : Env F G P} (hE : E.Lawful)
    {K : Codec F} {nc nv ni : Nat} {A B C : List (Nat × Nat × List UInt8)} {I : Inst F}
    (hnew : Inst.new K nc nv ni A B C = .ok (.ok I)) (hc : 1 ≤ nc) (hsz : I.inst.numVars ≤ 2 ^ 62)
    (S : GenSrc G) (label : List UInt8) {vars inputs : List F}
    (hsat : I.isSat vars inputs = .ok (.ok true)) (tr : Tr F P) (tape : Tape F) :
    ∃ gens pf T, NIZKGens.new S label nv ni = .ok gens ∧
      NIZK.prove (E.withHash (nonzeroFold E.hash)) I vars inputs gens tr tape = .ok (pf, T) ∧ tr <+: T ∧
      folds T ≤ folds tr + 31 ∧
      (NoZeroFold E.hash T → NIZK.prove E I vars inputs gens tr tape = .ok (pf, T) ∧
        NIZK.verify E pf I inputs gens tr = .ok T) := by
  obtain ⟨gens, pf, T, hg, hp, hv⟩ := nizk_complete_nonzero h2 h3 (hE.withHash (nonzeroFold E.hash))
    (nonzeroFold_ne E.hash) hnew hc hsz S label hsat tr tape
  exact ⟨gens, pf, T, hg, hp, (nizk_run_local.1 pf T hp).1, nizkV_cnt _ _ _ _ _ T hv, fun hz =>
    ⟨(nizk_run_local.1 pf T hp).2 (agree_of_noZero hz), ((nizk_run_local (vars := vars) (tape := tape)).2 pf T hv).2 (agree_of_noZero hz)⟩⟩

/-- C124 for the SNARK, under the size conditions of C44. -/
theorem snark_complete_run (h2 : (2 : F) ≠ 0) (h3 : (3 : F) ≠ 0) {E : Env F G P} (hE : E.Lawful)
    {K : Codec F} {nc nv ni nz : Nat} {A B C : List (Nat × Nat × List UInt8)} {I : Inst F}
    (hnew : Inst.new K nc nv ni A B C = .ok (.ok I)) (hc : 1 ≤ nc)
    (hnz : nextPow2 nz = nextPow2 (max (max I.inst.A.M.length I.inst.B.M.length) I.inst.C.M.length))
    (hnz2 : 2 ≤ nextPow2 nz) (hnz58 : nextPow2 nz ≤ 2 ^ 58) (hsc : I.inst.numCons ≤ 2 ^ 61)
    (hsv : I.inst.numVars ≤ 2 ^ 60)
    (S : GenSrc G) (ls le : List UInt8) {vars inputs : List F}
    (hsat : I.isSat vars inputs = .ok (.ok true)) (tr : Tr F P) (tape : Tape F) :
    ∃ gens comm decomm pf T, SNARKGens.new S ls le nc nv ni nz = .ok gens ∧
      SNARK.encode E I gens = .ok (comm, decomm) ∧
      SNARK.prove (E.withHash (nonzeroFold E.hash)) I comm decomm vars inputs gens tr tape = .ok (pf, T) ∧
      tr <+: T ∧
      (NoZeroFold E.hash T → SNARK.prove E I comm decomm vars inputs gens tr tape = .ok (pf, T) ∧
        SNARK.verify E pf comm inputs gens tr = .ok T) := by
  obtain ⟨gens, comm, decomm, pf, T, hg, he, hp, hv⟩ := snark_complete_partial h2 h3
    (hE.withHash (nonzeroFold E.hash)) (nonzeroFold_ne E.hash) hnew hc hnz hnz2 hnz58 hsc hsv S ls le hsat tr tape
  exact ⟨gens, comm, decomm, pf, T, hg, he, hp, (snarkProve_local (agree_nil E.hash _) _ _ _ _ _ _ _ _ _ hp).1, fun hz =>
    ⟨(snarkProve_local (agree_of_noZero hz) _ _ _ _ _ _ _ _ _ hp).2 List.prefix_rfl,
      (snarkV_local (agree_of_noZero hz) _ _ _ _ _ _ hv).2 List.prefix_rfl⟩⟩

/-- `prove` of the wasm interface before the proof is serialised (`wasm.rs` l. 19–52): the proof and the
transcript. -/
def wasmProveRun (W : WasmEnv F G P) (label : List UInt8) (tr0 : Tr F P) (tape : Tape F)
    (circuit vars publicInputs : List UInt8) : Out (NIZK F P × Tr F P) :=
  match loadWitness vars with
  | .error _ => .error .panic
  | .ok ws => do
    let assignment ← assignmentU W.codec (ws.map coreToRepr)
    match W.decInst circuit with
    | none => .error .panic
    | some I => do
      let gens ← NIZKGens.new W.src label I.inst.numVars I.inst.numInputs
      let slices ← inputSlices publicInputs I.inst.numInputs
      let input ← assignmentU W.codec slices
      NIZK.prove W.env I assignment input gens tr0 tape

/-- `prove` is `wasmProveRun` followed by the serialisation of the proof. -/
theorem wasmProve_run (W : WasmEnv F G P) (label : List UInt8) (tr0 : Tr F P) (tape : Tape F)
    (circuit vars publicInputs : List UInt8) :
    wasmProve W label tr0 tape circuit vars publicInputs =
      (wasmProveRun W label tr0 tape circuit vars publicInputs).map fun r => W.encProof r.1 := by
  unfold wasmProve wasmProveRun
  cases loadWitness vars with
  | error e => rfl
  | ok ws =>
    simp only
    cases assignmentU W.codec (ws.map coreToRepr) with
    | error e => rfl
    | ok as =>
      simp only [ok_bind]
      cases W.decInst circuit with
      | none => rfl
      | some I =>
        simp only
        cases NIZKGens.new W.src label I.inst.numVars I.inst.numInputs with
        | error e => rfl
        | ok gens =>
          simp only [ok_bind]
          cases inputSlices publicInputs I.inst.numInputs with
          | error e => rfl
          | ok sl =>
            simp only [ok_bind]
            cases assignmentU W.codec sl with
            | error e => rfl
            | ok x =>
              simp only [ok_bind]
              cases NIZK.prove W.env I as x gens tr0 tape <;> rfl

/-- C124 for the wasm interface: for every convertible circuit, every witness and every public input
(as in C69) there is a transcript `T`, that of the prover with zero folding challenges replaced by one,
such that, if no folding challenge in `T` is zero, `prove` returns the bytes of a proof and `verify`
returns true on them. -/
theorem wasm_prove_verify_run (h2 : (2 : F) ≠ 0) (h3 : (3 : F) ≠ 0) {W : Wire F P} (hW : W.Lawful)
    (h32 : 32 ≤ W.bits) {E : Env F G P} {src : GenSrc G} {K : Codec F} (hE : E.Lawful)
    {r : CircomR1CS} (hr : Convertible K r) (hc : r.constraints ≠ [])
    {numPub : Nat} {I : Inst F} (hI : convertToSpartan K r numPub = .ok I) (hok : W.okInst I)
    (hsz : I.inst.numVars ≤ 2 ^ 62)
    {pub : List UInt8} (hlen : numPub * 32 ≤ pub.length)
    (hcanon : ∀ b ∈ chunks pub numPub, (K.fromBytes b).isSome)
    {version : Nat} {prime : List UInt8} {ws : List Nat}
    (hv : version ≤ 2) (hp : prime.length = 32) (hw : ws.length < 2 ^ 27)
    (hwl : ws.length = r.numVariables)
    (hws : ∀ w ∈ ws, Readable w ∧ (K.fromBytes (encField w)).isSome)
    (hsat : ConsHold (coefVal K) (r.constraints.map toCon)
      (ws.map fun w => (K.fromBytes (encField w)).getD 0))
    (label : List UInt8) (tr0 : Tr F P) (tape : Tape F) :
    ∃ pf T, wasmProveRun (W.wasmEnv (E.withHash (nonzeroFold E.hash)) src K) label tr0 tape (W.fInst.enc I)
        (encWtns version prime (32 * ws.length) ws) pub = .ok (pf, T) ∧ tr0 <+: T ∧ folds T ≤ folds tr0 + 31 ∧
      (NoZeroFold E.hash T →
        wasmProve (W.wasmEnv E src K) label tr0 tape (W.fInst.enc I)
          (encWtns version prime (32 * ws.length) ws) pub = .ok (W.fNIZK.enc pf) ∧
        wasmVerify (W.wasmEnv E src K) label tr0 (W.fInst.enc I) (W.fNIZK.enc pf) pub = .ok true) := by
  obtain ⟨I', hI', hnew⟩ := convert_eq (numPub := numPub) hr
  rw [hI] at hI'
  cases hI'
  have hcirc : (W.wasmEnv E src K).decInst (W.fInst.enc I) = some I :=
    deserializeU_of (instance_bytes_roundtrip hW hok)
  obtain ⟨hni, hnv⟩ : I.inst.numInputs = numPub ∧ I.inst.numVars = varsPadded r.numVariables numPub := by
    obtain ⟨-, -, -, rfl⟩ := new_ok_entries hnew
    exact ⟨rfl, rfl⟩
  obtain ⟨x, hx, hxl, hxe⟩ : ∃ x, assignmentU K (chunks pub numPub) = .ok x ∧
      x.length = numPub ∧ x = (chunks pub numPub).map fun b => (K.fromBytes b).getD 0 := by
    rcases assignment_new_result K (chunks pub numPub) with ⟨-, e⟩ | ⟨⟨v, hv, e⟩, -⟩
    · exact ⟨_, by rw [assignmentU, e], by simp [chunks], rfl⟩
    · have := hcanon v hv
      rw [e] at this; cases this
  have hread : ∀ w ∈ ws, Readable w := fun w hw => (hws w hw).1
  obtain ⟨l, hl, hlb⟩ := wtns_read_partial (rest := []) hv hp hw hread
  rw [List.append_nil] at hl
  obtain ⟨vars, hvars, hve⟩ : ∃ vars, assignmentU K (l.map coreToRepr) = .ok vars ∧
      vars = ws.map fun w => (K.fromBytes (encField w)).getD 0 := by
    rw [hlb]
    rcases assignment_new_result K (ws.map encField) with ⟨-, e⟩ | ⟨⟨v, hv, e⟩, -⟩
    · exact ⟨_, by rw [assignmentU, e], by rw [List.map_map]; rfl⟩
    · rw [List.mem_map] at hv
      obtain ⟨w, hw, rfl⟩ := hv
      have b := (hws w hw).2
      rw [e] at b; cases b
  have hvl : vars.length = r.numVariables := by rw [hve, List.length_map, hwl]
  have hsat' : I.isSat vars x = .ok (.ok true) := by
    obtain ⟨b, hb, hiff⟩ := convert_sat_iff hr hI (vars := vars) hvl hxl
    rw [hiff.mpr] at hb
    · exact hb
    · rw [hve]; exact hsat
  obtain ⟨gens, pf, T, hg, hprove', hpre, hfolds, hrun⟩ := nizk_complete_run h2 h3 hE hnew
    (List.length_pos_iff.mpr hc) hsz src label hsat' tr0 tape
  have hg' : NIZKGens.new src label I.inst.numVars I.inst.numInputs = .ok gens := by
    rw [hni, hnv, ← hg]
    unfold NIZKGens.new
    rw [varsPadded_idem]
  have hs : inputSlices pub I.inst.numInputs = .ok (chunks pub numPub) := by
    rw [hni, inputSlices, if_pos hlen]; rfl
  have hj : I.inst.numVars = 2 ^ log2ceil (max r.numVariables (numPub + 1)) := by
    rw [hnv, varsPadded_eq]; rfl
  have hj62 : log2ceil (max r.numVariables (numPub + 1)) ≤ 62 := by
    rw [hj] at hsz
    exact (Nat.pow_le_pow_iff_right (by norm_num)).mp hsz
  have hcons : log2ceil I.inst.numCons ≤ 64 := by
    have h64 : I.inst.numCons ≤ 2 ^ 64 := (hok.1.1.trans_le
      (Nat.pow_le_pow_right (by norm_num) hW.bits_hi)).le
    exact Nat.clog_le_of_le_pow h64
  have hrun' : wasmProveRun (W.wasmEnv (E.withHash (nonzeroFold E.hash)) src K) label tr0 tape (W.fInst.enc I)
      (encWtns version prime (32 * ws.length) ws) pub = .ok (pf, T) := by
    unfold wasmProveRun
    rw [hl]
    have e0 : (W.wasmEnv (E.withHash (nonzeroFold E.hash)) src K).decInst (W.fInst.enc I) = some I := hcirc
    have e1 : (W.wasmEnv (E.withHash (nonzeroFold E.hash)) src K).codec = K := rfl
    have e2 : (W.wasmEnv (E.withHash (nonzeroFold E.hash)) src K).src = src := rfl
    have e3 : (W.wasmEnv (E.withHash (nonzeroFold E.hash)) src K).env = E.withHash (nonzeroFold E.hash) := rfl
    simp only [e0, e1, e2, e3, hvars, hg', hs, hx, hprove', ok_bind]
  refine ⟨pf, T, hrun', hpre, hfolds, fun hz => ?_⟩
  obtain ⟨hprove, hverify⟩ := hrun hz
  have hdec : (W.wasmEnv E src K).decProof (W.fNIZK.enc pf) = some pf := by
    refine deserializeU_of (nizk_prove_bytes hW h32 hj hj62 hcons ?_ hprove)
    rw [hvl, hnv]
    exact (le_varsPadded _ _).1
  refine ⟨?_, ?_⟩
  · unfold wasmProve
    rw [hl]
    simp only [hcirc]
    have e1 : (W.wasmEnv E src K).codec = K := rfl
    have e2 : (W.wasmEnv E src K).src = src := rfl
    have e3 : (W.wasmEnv E src K).env = E := rfl
    simp only [e1, e2, e3, hvars, hg', hs, hx, hprove, ok_bind]
    rfl
  · unfold wasmVerify
    rw [hcirc, hdec]
    have e1 : (W.wasmEnv E src K).codec = K := rfl
    have e2 : (W.wasmEnv E src K).src = src := rfl
    have e3 : (W.wasmEnv E src K).env = E := rfl
    simp only [e1, e2, e3, hg', hs, hx, hverify, ok_bind]
    rfl

/-- The hypotheses and the condition hold of a hash that does return zero to folding challenges, for the
instance `v0 * v1 = x` over ℚ with `v = (2, 3)`, `x = 6`: the run does not ask for them. -/
example : ∃ (hash : Tr ℚ ℚ → ℚ) (I : Inst ℚ) (gens : R1CSGens ℚ) (pf : NIZK ℚ ℚ) (T : Tr ℚ ℚ),
    (∃ t, hash (t ++ [.chal "u"]) = 0) ∧
    Inst.new toyCodec 1 2 1 [(0, 0, [1])] [(0, 1, [1])] [(0, 3, [1])] = .ok (.ok I) ∧
    NoZeroFold hash T ∧
    NIZK.prove (⟨id, some, hash⟩ : Env ℚ ℚ ℚ) I [2, 3] [6] gens [.bytes "dom-sep" "test"] (fun i => i) = .ok (pf, T) ∧
    NIZK.verify (⟨id, some, hash⟩ : Env ℚ ℚ ℚ) pf I [6] gens [.bytes "dom-sep" "test"] = .ok T := by
  obtain ⟨I, hI⟩ := (instance_new_ok_iff toyCodec 1 2 1 [(0, 0, [1])] [(0, 1, [1])] [(0, 3, [1])]).2
    (by decide)
  have hn : I.inst.numVars = 2 := by
    obtain ⟨-, -, -, rfl⟩ := new_ok_entries hI
    show varsPadded 2 1 = 2
    rw [varsPadded_eq]
    exact nextPow2_pow 1
  obtain ⟨b, hb, hiff⟩ := padding_preserves_sat hI (vars := [2, 3]) (inputs := [6]) (by rw [hn]; simp) rfl
  have hbt : b = true := hiff.2 (by
    intro i hi
    interval_cases i
    norm_num [rowDot, parsed, toyCodec, matEntry, zvec, fit, Finset.sum_range_succ,
      show UInt8.toNat 1 = 1 from rfl])
  subst hbt
  obtain ⟨gens, pf, T, -, -, hpre, -, hrun⟩ := nizk_complete_run
    (E := (⟨id, some, fun t => if t.length = 1 then 0 else 5⟩ : Env ℚ ℚ ℚ))
    (by norm_num) (by norm_num) (fun _ => rfl) hI le_rfl (by rw [hn]; norm_num)
    ⟨fun _ i => UInt8.ofNat i, fun b => (b.getD 0 0).toNat⟩ [1] hb [.bytes "dom-sep" "test"] (fun i => i)
  have hz : NoZeroFold (fun t : Tr ℚ ℚ => if t.length = 1 then (0 : ℚ) else 5) T := by
    intro t ht
    obtain ⟨u, rfl⟩ := hpre
    cases t with
    | nil =>
      rw [List.nil_append, List.singleton_append, List.cons_prefix_cons] at ht
      exact absurd ht.1 (by simp)
    | cons m t =>
      simp
  exact ⟨_, I, gens, pf, T, ⟨[], rfl⟩, hI, hz, (hrun hz).1, (hrun hz).2⟩

end Spartan
