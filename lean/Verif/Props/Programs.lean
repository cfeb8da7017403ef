import Verif.Model.Programs
import Verif.Props.Concrete
import Verif.Props.Convert
import Verif.Props.CoreScalar
import Verif.Props.SNARK
import Verif.Lemmas.LimbsRep

/-!
Properties C90 and C91: the shipped programs run to completion whatever is drawn, and the constants
program prints valid Montgomery constants for every suitable modulus.
-/

set_option exponentiation.threshold 2000

namespace Spartan
open Spec MParams

/-! ### The codec at the actual scalar type -/

/-- Exactly the 32-byte encodings of integers below `p` are accepted. -/
theorem scalarCodec_fromBytes (dg : R1CS (ZMod secpP) → List UInt8) (bs : List UInt8) (x : ZMod secpP) :
    (scalarCodec dg).fromBytes bs = some x ↔ bs.length = 32 ∧ leNat bs < secpP ∧ x = (leNat bs : ZMod secpP) := by
  show (if bs.length = 32 then
    (paramsP.fromBytes bs).map fun a => (leNat (paramsP.toBytes a) : ZMod secpP) else none) = some x ↔ _
  by_cases hl : bs.length = 32
  · rw [if_pos hl, Option.map_eq_some_iff]
    constructor
    · rintro ⟨a, ha, rfl⟩
      obtain ⟨-, h2⟩ := (scalar_from_bytes hl).2 a ha
      exact ⟨hl, (scalar_from_bytes hl).1.1 ⟨a, ha⟩, by rw [h2]⟩
    · rintro ⟨-, hlt, rfl⟩
      obtain ⟨a, ha⟩ := (scalar_from_bytes hl).1.2 hlt
      exact ⟨a, ha, by rw [((scalar_from_bytes hl).2 a ha).2]⟩
  · rw [if_neg hl]
    simp [hl]

/-- The codec used for circuit files is the same. -/
theorem scalarCodec_eq (dg : R1CS (ZMod secpP) → List UInt8) : scalarCodec dg = secpCodec dg := by
  have h : ∀ bs, (scalarCodec dg).fromBytes bs = (secpCodec dg).fromBytes bs := by
    intro bs
    apply Option.ext
    intro x
    rw [scalarCodec_fromBytes]
    show _ ↔ (if bs.length = 32 ∧ leNat bs < secpP then some (leNat bs : ZMod secpP) else none) = some x
    split_ifs with hc
    · rw [Option.some_inj]
      exact ⟨fun h => h.2.2.symm, fun h => ⟨hc.1, hc.2, h.symm⟩⟩
    · exact ⟨fun h => absurd ⟨h.1, h.2.1⟩ hc, fun h => by cases h⟩
  have h' := funext h
  show (⟨(scalarCodec dg).fromBytes, dg⟩ : Codec (ZMod secpP)) = ⟨(secpCodec dg).fromBytes, dg⟩
  rw [h']

namespace Programs

theorem codec_toBytes (dg : R1CS (ZMod secpP) → List UInt8) {a : Nat} (ha : CoreScalar.Valid a) :
    (scalarCodec dg).fromBytes (CoreScalar.toBytes a) = some (a : ZMod secpP) := by
  have hv : leNat (CoreScalar.toBytes a) = a := by
    rw [CoreScalar.toBytes, leNat_leBytes]
    exact Nat.mod_eq_of_lt (lt_of_lt_of_le ha (by unfold secpP; norm_num))
  exact (scalarCodec_fromBytes dg _ _).2 ⟨leBytes_length 32 a, by rw [hv]; exact ha, by rw [hv]⟩

theorem valid_one : CoreScalar.Valid 1 := by unfold CoreScalar.Valid secpP; norm_num
theorem valid_five : CoreScalar.Valid 5 := by unfold CoreScalar.Valid secpP; norm_num

theorem codec_one (dg : R1CS (ZMod secpP) → List UInt8) : (scalarCodec dg).fromBytes oneB = some 1 := by
  have := codec_toBytes dg valid_one
  rwa [Nat.cast_one] at this

theorem codec_five (dg : R1CS (ZMod secpP) → List UInt8) : (scalarCodec dg).fromBytes fiveB = some 5 := by
  have := codec_toBytes dg valid_five
  rwa [Nat.cast_ofNat] at this

attribute [local irreducible] secqOrder secpP CoreScalar.mul CoreScalar.add CoreScalar.toBytes scalarCodec

theorem unwrapR_ok {α ε : Type} (a : α) : unwrapR (.ok a : Except ε α) = .ok a := rfl

theorem assignmentNew_cons {F : Type} [Field F] {K : Codec F} {v : List UInt8} {vs : List (List UInt8)} {x : F} {xs : List F}
    (h : K.fromBytes v = some x) (hs : assignmentNew K vs = .ok xs) :
    assignmentNew K (v :: vs) = .ok (x :: xs) := by
  rw [assignmentNew, h, hs]

/-- The instance of the example is built. -/
theorem cubic_inst (dg : R1CS (ZMod secpP) → List UInt8) :
    ∃ I, Inst.new (scalarCodec dg) 4 4 1 cubicA cubicB cubicC = .ok (.ok I) := by
  rw [instance_new_ok_iff]
  have h1 := codec_one dg
  have h5 := codec_five dg
  intro e he
  simp only [cubicA, cubicB, cubicC, List.cons_append, List.nil_append, List.mem_cons, List.not_mem_nil,
    or_false] at he
  rcases he with rfl | rfl | rfl | rfl | rfl | rfl | rfl | rfl | rfl | rfl | rfl | rfl | rfl | rfl <;>
    refine ⟨by decide, by decide, ?_⟩ <;> first | (rw [h1]; rfl) | (rw [h5]; rfl)

/-- What the four constraints of the example say. -/
theorem cubic_sat (dg : R1CS (ZMod secpP) → List UInt8) (x0 x1 x2 x3 y : ZMod secpP) :
    Sat (parsed (scalarCodec dg) cubicA) (parsed (scalarCodec dg) cubicB) (parsed (scalarCodec dg) cubicC) 4
      (zvec [x0, x1, x2, x3] [y]) ↔ x0 * x0 = x1 ∧ x1 * x0 = x2 ∧ x2 + x0 = x3 ∧ x3 + 5 = y := by
  have h1 := codec_one dg
  have h5 := codec_five dg
  have key : ∀ i, i < 4 ↔ i = 0 ∨ i = 1 ∨ i = 2 ∨ i = 3 := by omega
  unfold Sat
  simp only [key, parsed, cubicA, cubicB, cubicC, List.map_cons, List.map_nil, h1, h5, Option.getD_some]
  simp [rowDot, matEntry, zvec, Finset.sum_range_succ, forall_eq_or_imp]
  intro _ _ _
  rw [add_comm x0 x2]

/-- C90, the example's instance.  For every value `z` that `Scalar::random` may return, `produce_r1cs`
ends without a panic, its assignment is `(z, z², z³, z³ + z)` with the public value `z³ + z + 5`, and
`is_sat` accepts it. -/
theorem cubic_r1cs (dg : R1CS (ZMod secpP) → List UInt8) {z : Nat} (hz : CoreScalar.Valid z) :
    ∃ I, Inst.new (scalarCodec dg) 4 4 1 cubicA cubicB cubicC = .ok (.ok I) ∧
      cubicR1CS (scalarCodec dg) z = .ok (I, [(z : ZMod secpP), z ^ 2, z ^ 3, z ^ 3 + z], [(z : ZMod secpP) ^ 3 + z + 5]) ∧
      I.isSat [(z : ZMod secpP), z ^ 2, z ^ 3, z ^ 3 + z] [(z : ZMod secpP) ^ 3 + z + 5] = .ok (.ok true) := by
  obtain ⟨I, hI⟩ := cubic_inst dg
  obtain ⟨z1, m1, v1, e1⟩ := (CoreScalar.core_ring_ops hz hz).2.2.2.2
  obtain ⟨z2, m2, v2, e2⟩ := (CoreScalar.core_ring_ops v1 hz).2.2.2.2
  obtain ⟨v3, e3⟩ := (CoreScalar.core_ring_ops v2 hz).1
  obtain ⟨v4, e4⟩ := (CoreScalar.core_ring_ops v3 valid_five).1
  have e1' : (z1 : ZMod secpP) = z ^ 2 := by rw [e1]; ring
  have e2' : (z2 : ZMod secpP) = z ^ 3 := by rw [e2, e1]; ring
  have e3' : (CoreScalar.add z2 z : ZMod secpP) = z ^ 3 + z := by rw [e3, e2']
  have e4' : (CoreScalar.add (CoreScalar.add z2 z) 5 : ZMod secpP) = z ^ 3 + z + 5 := by
    rw [e4, e3', Nat.cast_ofNat]
  have hn : I.inst.numVars = 4 := by
    obtain ⟨-, -, -, rfl⟩ := new_ok_entries hI
    show varsPadded 4 1 = 4
    rw [varsPadded_eq]
    exact nextPow2_pow 2
  obtain ⟨b, hb, hiff⟩ := padding_preserves_sat hI (vars := [(z : ZMod secpP), z ^ 2, z ^ 3, z ^ 3 + z])
    (inputs := [(z : ZMod secpP) ^ 3 + z + 5]) (by rw [hn]; simp) rfl
  have hbt : b = true := hiff.2 (by
    rw [show fit 4 [(z : ZMod secpP), z ^ 2, z ^ 3, z ^ 3 + z] = [(z : ZMod secpP), z ^ 2, z ^ 3, z ^ 3 + z] from rfl,
      cubic_sat]
    exact ⟨by ring, by ring, rfl, rfl⟩)
  subst hbt
  refine ⟨I, hI, ?_, hb⟩
  have hv : assignmentNew (scalarCodec dg) [CoreScalar.toBytes z, CoreScalar.toBytes z1,
      CoreScalar.toBytes z2, CoreScalar.toBytes (CoreScalar.add z2 z)] =
      .ok [(z : ZMod secpP), z ^ 2, z ^ 3, z ^ 3 + z] := by
    rw [← e3', ← e2', ← e1']
    exact assignmentNew_cons (codec_toBytes dg hz) (assignmentNew_cons (codec_toBytes dg v1)
      (assignmentNew_cons (codec_toBytes dg v2) (assignmentNew_cons (codec_toBytes dg v3) rfl)))
  have hi : assignmentNew (scalarCodec dg)
      [CoreScalar.toBytes (CoreScalar.add (CoreScalar.add z2 z) 5)] = .ok [(z : ZMod secpP) ^ 3 + z + 5] := by
    rw [← e4']
    exact assignmentNew_cons (codec_toBytes dg v4) rfl
  unfold cubicR1CS
  rw [hI, ok_bind, unwrapR_ok, ok_bind, m1, ok_bind, m2, ok_bind]
  simp only
  rw [show CoreScalar.fromU64 5 = 5 from rfl, hv, unwrapR_ok, ok_bind, hi, unwrapR_ok, ok_bind, hb, ok_bind,
    unwrapR_ok, ok_bind, check_true rfl, ok_bind, pure_ok]

theorem snarkRun_ok {F G P : Type} [Field F] [AddCommGroup G] [Module F G] [DecidableEq F] [DecidableEq P]
    [DecidableEq G] {E : Env F G P} {S : GenSrc G} {label : String} {nc nv ni nz : Nat} {I : Inst F}
    {vars inputs : List F} {tape : Tape F}
    (h : ∃ gens comm decomm pf tr',
      SNARKGens.new S "gens_r1cs_sat".toUTF8.toList "gens_r1cs_eval".toUTF8.toList nc nv ni nz = .ok gens ∧
      SNARK.encode E I gens = .ok (comm, decomm) ∧
      SNARK.prove E I comm decomm vars inputs gens (newTr label) tape = .ok (pf, tr') ∧
      SNARK.verify E pf comm inputs gens (newTr label) = .ok tr') :
    snarkRun E S label nc nv ni nz I vars inputs tape = .ok () := by
  obtain ⟨gens, comm, decomm, pf, tr', h1, h2, h3, h4⟩ := h
  unfold snarkRun
  rw [h1, ok_bind, h2, ok_bind]
  simp only
  rw [h3, ok_bind]
  simp only
  rw [h4, ok_bind]
  rfl

theorem cubic_lengths (dg : R1CS (ZMod secpP) → List UInt8) {I : Inst (ZMod secpP)}
    (hI : Inst.new (scalarCodec dg) 4 4 1 cubicA cubicB cubicC = .ok (.ok I)) :
    I.inst.A.M.length = 6 ∧ I.inst.B.M.length = 4 ∧ I.inst.C.M.length = 4 ∧ I.inst.numCons = 4 ∧
      I.inst.numVars = 4 := by
  obtain ⟨-, -, -, rfl⟩ := new_ok_entries hI
  refine ⟨?_, ?_, ?_, ?_, ?_⟩
  · show (entriesOf (convMat (scalarCodec dg) 4 4 1 cubicA)).length = 6
    simp [entriesOf, convMat, padRows, parsed, cubicA]
  · show (entriesOf (convMat (scalarCodec dg) 4 4 1 cubicB)).length = 4
    simp [entriesOf, convMat, padRows, parsed, cubicB]
  · show (entriesOf (convMat (scalarCodec dg) 4 4 1 cubicC)).length = 4
    simp [entriesOf, convMat, padRows, parsed, cubicC]
  · show consPadded 4 = 4
    rfl
  · show varsPadded 4 1 = 4
    rw [varsPadded_eq]
    exact nextPow2_pow 2

/-- C90, the example program.  For every value that `Scalar::random` may return, all generators, every
random tape and every transcript hash whose folding challenges are not zero, `examples/cubic.rs` runs
to its end: no `unwrap` and no assertion fails. -/
theorem cubic_runs {sqrt : ZMod secpN → Option (ZMod secpN)} (hs : SqrtSpec sqrt)
    (hash : Tr (ZMod secpP) (List UInt8) → ZMod secpP) (hu : ∀ t, hash (t ++ [.chal "u"]) ≠ 0)
    (dg : R1CS (ZMod secpP) → List UInt8) (S : GenSrc Secq) {z : Nat} (hz : CoreScalar.Valid z)
    (tape : Tape (ZMod secpP)) :
    cubicMain (scalarCodec dg) (secqEnv sqrt hash) S z tape = .ok () := by
  obtain ⟨I, hI, hr, hsat⟩ := cubic_r1cs dg hz
  obtain ⟨hA, hB, hC, hc, hv⟩ := cubic_lengths dg hI
  unfold cubicMain
  rw [hr, ok_bind]
  simp only
  have p8 : nextPow2 8 = 8 := nextPow2_pow 3
  apply snarkRun_ok
  exact snark_complete_partial (E := secqEnv sqrt hash) Koblitz.secp_consts.1 Koblitz.secp_consts.2.1
    (secqEnv_lawful hs hash) hu hI (by norm_num) (nz := 8)
    (by rw [hA, hB, hC, p8]; decide +kernel) (by rw [p8]; norm_num) (by rw [p8]; norm_num)
    (by rw [hc]; norm_num) (by rw [hv]; norm_num) S _ _ hsat _ tape

/-! ### Synthetic instances -/

variable {F G P : Type} [Field F] [AddCommGroup G] [Module F G] [DecidableEq F] [DecidableEq P] [DecidableEq G]

theorem isSat_of_full {I : Inst F} {vars inputs : List F} (hv : vars.length = I.inst.numVars)
    (hi : inputs.length = I.inst.numInputs) (h : I.inst.isSat vars inputs = .ok true) :
    I.isSat vars inputs = .ok (.ok true) := by
  have hf : fit I.inst.numVars vars = vars := by
    rw [fit, ← hv, Nat.sub_self, List.replicate_zero, List.append_nil, List.take_length]
  unfold Inst.isSat
  rw [if_neg (by omega), if_neg (by simp [hi]), padVars_eq hv.le, hf, ok_bind, h, ok_bind, pure_ok]

/-- A synthetic instance with at least as many variables as inputs: well-formed, with its assignment. -/
theorem syntheticInst_ok (K : Codec F) (rnd : Tape F) {k j ni : Nat} (hi : ni < 2 ^ j) :
    ∃ I vars inputs, syntheticInst K rnd (2 ^ k) (2 ^ j) ni = .ok (I, vars, inputs) ∧ I.inst.WF k j ∧
      I.inst.numInputs = ni ∧ I.isSat vars inputs = .ok (.ok true) ∧
      I.inst.A.M.length = 2 ^ k ∧ I.inst.B.M.length = 2 ^ k ∧ I.inst.C.M.length = 2 ^ k := by
  obtain ⟨I, vars, inputs, h, hc, hv, hn, hvl, hil, hs, -, ⟨rA, rB, rC⟩, ⟨nA, nB, nC⟩, l⟩ :=
    synthetic_shape rnd (k := k) hi
  refine ⟨⟨I, K.digest I⟩, vars, inputs, ?_, ⟨hc, hv, by rw [hn]; exact hi, by rw [hn]; exact rA,
    by rw [hn]; exact rB, by rw [hn]; exact rC, nA, nB, nC⟩, hn, isSat_of_full (by rw [hvl, ← hv])
    (by rw [hil, ← hn]) hs, l⟩
  unfold syntheticInst
  rw [h, ok_bind]
  rfl

theorem consPadded_two_pow {k : Nat} (hk : 1 ≤ k) : consPadded (2 ^ k) = 2 ^ k := by
  have h2 : 2 ≤ 2 ^ k := by
    calc 2 = 2 ^ 1 := rfl
      _ ≤ 2 ^ k := Nat.pow_le_pow_right (by norm_num) hk
  rw [consPadded_eq, if_neg (by omega), if_neg (by omega)]
  exact nextPow2_pow k

theorem varsPadded_two_pow {j ni : Nat} (hi : ni < 2 ^ j) : varsPadded (2 ^ j) ni = 2 ^ j := by
  rw [varsPadded_eq, max_eq_left (by omega)]
  exact nextPow2_pow j

/-- C90, synthetic instances in the SNARK.  For all powers of two from two constraints up, any number of
inputs below the number of variables and all draws: the instance is produced, encoded, proved and
verified without a panic, with generators for as many entries as constraints. -/
theorem synthetic_snark_runs (h2 : (2 : F) ≠ 0) (h3 : (3 : F) ≠ 0) {E : Env F G P} (hE : E.Lawful)
    (hu : ∀ t, E.hash (t ++ [.chal "u"]) ≠ 0) (K : Codec F) (S : GenSrc G) (rnd tape : Tape F) (label : String)
    {k j ni : Nat} (hk : 1 ≤ k) (hk58 : k ≤ 58) (hj60 : j ≤ 60) (hi : ni < 2 ^ j) :
    ∃ I vars inputs, syntheticInst K rnd (2 ^ k) (2 ^ j) ni = .ok (I, vars, inputs) ∧
      snarkRun E S label (2 ^ k) (2 ^ j) ni (2 ^ k) I vars inputs tape = .ok () := by
  obtain ⟨I, vars, inputs, h, hwf, hn, hs, lA, lB, lC⟩ := syntheticInst_ok K rnd (k := k) hi
  refine ⟨I, vars, inputs, h, snarkRun_ok ?_⟩
  have hp : nextPow2 (2 ^ k) = 2 ^ k := nextPow2_pow k
  exact snark_complete_wf h2 h3 hE hu hwf Nat.one_le_two_pow hk (consPadded_two_pow hk) (varsPadded_two_pow hi)
    (by rw [lA, lB, lC, max_self, max_self])
    (by rw [hp]; exact (Nat.pow_le_pow_right (by norm_num) hk : 2 ^ 1 ≤ 2 ^ k))
    (by rw [hp]; exact Nat.pow_le_pow_right (by norm_num) hk58) (by omega) hj60 S _ _ hs _ tape

/-- C90, synthetic instances in the NIZK. -/
theorem synthetic_nizk_runs (h2 : (2 : F) ≠ 0) (h3 : (3 : F) ≠ 0) {E : Env F G P} (hE : E.Lawful)
    (hu : ∀ t, E.hash (t ++ [.chal "u"]) ≠ 0) (K : Codec F) (S : GenSrc G) (rnd tape : Tape F) (label : String)
    {k j ni : Nat} (hk : 1 ≤ k) (hj62 : j ≤ 62) (hi : ni < 2 ^ j) :
    ∃ I vars inputs, syntheticInst K rnd (2 ^ k) (2 ^ j) ni = .ok (I, vars, inputs) ∧
      nizkRun E S label (2 ^ j) ni I vars inputs tape = .ok () := by
  obtain ⟨I, vars, inputs, h, hwf, hn, hs, -⟩ := syntheticInst_ok K rnd (k := k) hi
  refine ⟨I, vars, inputs, h, ?_⟩
  obtain ⟨gens, hg, ⟨pf, tr', hp, hv⟩ | ⟨-, t, ht⟩⟩ := nizk_complete_wf h2 h3 hE hwf hk (varsPadded_two_pow hi)
    hj62 S "gens_r1cs_sat".toUTF8.toList hs (newTr label) tape
  · unfold nizkRun
    rw [hg, ok_bind, hp, ok_bind]
    simp only
    rw [hv, ok_bind]
    rfl
  · exact absurd ht (hu t)

theorem forM_ok {α : Type} {f : α → Out Unit} : ∀ {l : List α}, (∀ a ∈ l, f a = .ok ()) → l.forM f = .ok ()
  | [], _ => rfl
  | a :: l, h => by
    show (f a >>= fun _ => l.forM f) = _
    rw [h a (by simp), ok_bind]
    exact forM_ok fun b hb => h b (by simp [hb])

/-- C90, the profilers.  Whatever is drawn for every size, the two profiler programs run to their end on
the actual curve. -/
theorem profilers_run {sqrt : ZMod secpN → Option (ZMod secpN)} (hs : SqrtSpec sqrt)
    (hash : Tr (ZMod secpP) (List UInt8) → ZMod secpP) (hu : ∀ t, hash (t ++ [.chal "u"]) ≠ 0)
    (dg : R1CS (ZMod secpP) → List UInt8) (S : GenSrc Secq) (rnd tape : Nat → Tape (ZMod secpP)) :
    snarkProfiler (scalarCodec dg) (secqEnv sqrt hash) S rnd tape = .ok () ∧
      nizkProfiler (scalarCodec dg) (secqEnv sqrt hash) S rnd tape = .ok () := by
  have hrange : ∀ s ∈ [10, 11, 12, 13, 14, 15, 16, 17, 18, 19, 20], 10 ≤ s ∧ s ≤ 20 := by decide
  have hten : ∀ s, 10 ≤ s → 10 < 2 ^ s := fun s h =>
    lt_of_lt_of_le (by norm_num) (Nat.pow_le_pow_right (by norm_num : 0 < 2) h)
  constructor
  · refine forM_ok fun s hm => ?_
    obtain ⟨h1, h2⟩ := hrange s hm
    obtain ⟨I, vars, inputs, hI, hr⟩ := synthetic_snark_runs (E := secqEnv sqrt hash) Koblitz.secp_consts.1
      Koblitz.secp_consts.2.1 (secqEnv_lawful hs hash) hu (scalarCodec dg) S (rnd s) (tape s) "snark_example"
      (k := s) (j := s) (ni := 10) (by omega) (by omega) (by omega) (hten s h1)
    unfold snarkProfile
    rw [hI, ok_bind]
    exact hr
  · refine forM_ok fun s hm => ?_
    obtain ⟨h1, h2⟩ := hrange s hm
    obtain ⟨I, vars, inputs, hI, hr⟩ := synthetic_nizk_runs (E := secqEnv sqrt hash) Koblitz.secp_consts.1
      Koblitz.secp_consts.2.1 (secqEnv_lawful hs hash) hu (scalarCodec dg) S (rnd s) (tape s) "nizk_example"
      (k := s) (j := s) (ni := 10) (by omega) (by omega) (hten s h1)
    unfold nizkProfile
    rw [hI, ok_bind]
    exact hr

/-- The hypotheses of `cubic_runs` and `profilers_run` are met: a square root function exists and the
constant hash `1` has no zero challenge. -/
example (S : GenSrc Secq) (tape : Tape (ZMod secpP)) : ∃ (sqrt : ZMod secpN → Option (ZMod secpN)),
    cubicMain (scalarCodec fun _ => []) (secqEnv sqrt fun _ => 1) S 7 tape = .ok () := by
  obtain ⟨sqrt, hs⟩ := exists_sqrtSpec
  exact ⟨sqrt, cubic_runs hs (fun _ => 1) (fun _ => one_ne_zero) _ S
    (by unfold CoreScalar.Valid secpP; norm_num) tape⟩

/-! ### mont_params.rs -/

theorem getWords_val {n : Nat} (hn : n < 2 ^ 256) : (getWords n).val = n ∧ (getWords n).l4 = 0 := by
  have hw : ∀ i, (UInt64.ofNat ((n >>> (64 * i)) % 2 ^ 64)).toNat = n / 2 ^ (64 * i) % 2 ^ 64 := by
    intro i
    rw [UInt64.toNat_ofNat', Nat.shiftRight_eq_div_pow, Nat.mod_mod]
  refine ⟨?_, rfl⟩
  unfold getWords Limbs.val
  simp only
  rw [hw, hw, hw, hw]
  have z : (0 : UInt64).toNat = 0 := rfl
  rw [z]
  norm_num at hn ⊢
  omega

theorem modInverse_ok {a : Nat} (ha : a % 2 = 1) :
    ∃ i, modInverse a (2 ^ 64) = .ok i ∧ i < 2 ^ 64 ∧ a * i % 2 ^ 64 = 1 := by
  have hg : Nat.gcd a (2 ^ 64) = 1 := by
    apply Nat.Coprime.pow_right
    rw [Nat.coprime_two_right]
    exact Nat.odd_iff.2 ha
  have hb := Nat.gcd_eq_gcd_ab a (2 ^ 64)
  rw [hg] at hb
  have h0 : (0 : Int) ≤ Nat.gcdA a (2 ^ 64) % ((2 ^ 64 : ℕ) : Int) := Int.emod_nonneg _ (by norm_num)
  have h1 : Nat.gcdA a (2 ^ 64) % ((2 ^ 64 : ℕ) : Int) < ((2 ^ 64 : ℕ) : Int) := Int.emod_lt_of_pos _ (by norm_num)
  refine ⟨(Nat.gcdA a (2 ^ 64) % ((2 ^ 64 : ℕ) : Int)).toNat, by rw [modInverse, if_pos hg], by omega, ?_⟩
  have h2 : ((a * (Nat.gcdA a (2 ^ 64) % ((2 ^ 64 : ℕ) : Int)).toNat : ℕ) : Int) % ((2 ^ 64 : ℕ) : Int) = 1 := by
    rw [Nat.cast_mul, Int.toNat_of_nonneg h0, Int.mul_emod, Int.emod_emod_of_dvd _ dvd_rfl, ← Int.mul_emod]
    have h3 : (a : Int) * Nat.gcdA a (2 ^ 64) = 1 - ((2 ^ 64 : ℕ) : Int) * Nat.gcdB a (2 ^ 64) := by
      rw [← Nat.cast_one, hb]; ring
    rw [h3, Int.sub_mul_emod_self_left]
    rfl
  exact_mod_cast h2

/-- C91, the constants program.  For every odd modulus of 256 bits it ends without a panic, and the five
constants it prints are: the modulus itself, `INV` with `m · INV ≡ -1` modulo `2^64`, and `2^256`,
`2^512`, `2^768` reduced modulo `m`. -/
theorem mont_params_valid {m : Nat} (hodd : m % 2 = 1) (hm : 2 ^ 255 < m) (hm' : m < 2 ^ 256) :
    ∃ M, montParams m = .ok M ∧ M.modulus.val = m ∧ m * M.inv.toNat % 2 ^ 64 = 2 ^ 64 - 1 ∧
      M.r.val = 2 ^ 256 % m ∧ M.r2.val = 2 ^ 512 % m ∧ M.r3.val = 2 ^ 768 % m ∧ M.Valid m := by
  obtain ⟨i, hi, hlt, h1⟩ := modInverse_ok hodd
  have hpos : 0 < m := lt_trans (by norm_num) hm
  have hr : ∀ n, n % m < 2 ^ 256 := fun n => lt_trans (Nat.mod_lt _ hpos) hm'
  have hi0 : i ≠ 0 := by rintro rfl; simp at h1
  have hinv : ((-(i : Int)) % (2 ^ 64 : Int)).toNat = 2 ^ 64 - i := by omega
  have hw : ((getWords (2 ^ 64 - i)).l0).toNat = 2 ^ 64 - i := by
    unfold getWords
    simp only
    rw [UInt64.toNat_ofNat', Nat.shiftRight_eq_div_pow, Nat.mod_mod, Nat.mul_zero, pow_zero, Nat.div_one]
    exact Nat.mod_eq_of_lt (by omega)
  have hneg : m * (2 ^ 64 - i) % 2 ^ 64 = 2 ^ 64 - 1 := by
    have h2 : m * (2 ^ 64 - i) + m * i = m * 2 ^ 64 := by rw [← Nat.mul_add, Nat.sub_add_cancel hlt.le]
    generalize m * (2 ^ 64 - i) = x at *
    generalize m * i = y at *
    omega
  refine ⟨⟨getWords m, (getWords (2 ^ 64 - i)).l0, getWords (2 ^ 256 % m), getWords (2 ^ 512 % m),
    getWords (2 ^ 768 % m)⟩, ?_, (getWords_val hm').1, by simp only; rw [hw]; exact hneg, (getWords_val (hr _)).1,
    (getWords_val (hr _)).1, (getWords_val (hr _)).1, ?_⟩
  · unfold montParams
    rw [hi, ok_bind]
    simp only
    rw [hinv]
    rfl
  · exact ⟨(getWords_val hm').1, rfl, lt_trans (by norm_num) hm, hodd, hm, by
      simp only; rw [hw, Nat.add_mod, hneg]; norm_num, (getWords_val (hr _)).1, (getWords_val (hr _)).1, (getWords_val (hr _)).1⟩

theorem limbs_val_inj {a b : Limbs} (h : a.val = b.val) : a = b := by
  obtain ⟨a0, a1, a2, a3, a4⟩ := a
  obtain ⟨b0, b1, b2, b3, b4⟩ := b
  have := a0.toNat_lt; have := a1.toNat_lt; have := a2.toNat_lt; have := a3.toNat_lt; have := a4.toNat_lt
  have := b0.toNat_lt; have := b1.toNat_lt; have := b2.toNat_lt; have := b3.toNat_lt; have := b4.toNat_lt
  unfold Limbs.val at h
  simp only at h
  norm_num at *
  refine ⟨?_, ?_, ?_, ?_, ?_⟩ <;> (apply UInt64.toNat_inj.1; omega)

/-- The constants are determined by the modulus. -/
theorem valid_unique {M N : MParams} {m : Nat} (hM : M.Valid m) (hN : N.Valid m) : M = N := by
  obtain ⟨Mm, Mi, Mr, Mr2, Mr3⟩ := M
  obtain ⟨Nm, Ni, Nr, Nr2, Nr3⟩ := N
  have e1 : Mm = Nm := limbs_val_inj (hM.val.trans hN.val.symm)
  have e3 : Mr = Nr := limbs_val_inj (hM.r.trans hN.r.symm)
  have e4 : Mr2 = Nr2 := limbs_val_inj (hM.r2.trans hN.r2.symm)
  have e5 : Mr3 = Nr3 := limbs_val_inj (hM.r3.trans hN.r3.symm)
  have e2 : Mi = Ni := by
    apply UInt64.toNat_inj.1
    have h1 : (m * Mi.toNat + 1) % 2 ^ 64 = 0 := hM.inv
    have h2 : (m * Ni.toNat + 1) % 2 ^ 64 = 0 := hN.inv
    have h3 : m * Mi.toNat ≡ m * Ni.toNat [MOD 2 ^ 64] := by
      have : m * Mi.toNat + 1 ≡ m * Ni.toNat + 1 [MOD 2 ^ 64] := h1.trans h2.symm
      exact Nat.ModEq.add_right_cancel' 1 this
    have hc : Nat.gcd (2 ^ 64) m = 1 := by
      apply Nat.Coprime.pow_left
      rw [Nat.coprime_two_left]
      exact Nat.odd_iff.2 hM.odd
    have h4 := Nat.ModEq.cancel_left_of_coprime hc h3
    have h5 := Mi.toNat_lt
    have h6 := Ni.toNat_lt
    unfold Nat.ModEq at h4
    rwa [Nat.mod_eq_of_lt h5, Nat.mod_eq_of_lt h6] at h4
  rw [e1, e2, e3, e4, e5]

/-- C91: run on the modulus in its source, the program prints the constants that `scalar.rs` and
`field_secp.rs` contain; run on the other modulus, those of `field_secq.rs`. -/
theorem mont_params_constants : montParams secpP = .ok paramsP ∧ montParams secpN = .ok paramsQ := by
  constructor
  · obtain ⟨M, h, -, -, -, -, -, hv⟩ := mont_params_valid valid_P.odd valid_P.big valid_P.lt
    rw [h, valid_unique hv valid_P]
  · obtain ⟨M, h, -, -, -, -, -, hv⟩ := mont_params_valid valid_Q.odd valid_Q.big valid_Q.lt
    rw [h, valid_unique hv valid_Q]

/-- C91: for an even modulus there is no `INV` and the program panics. -/
theorem mont_params_even {m : Nat} (h : m % 2 = 0) : montParams m = .error .panic := by
  unfold montParams modInverse
  have hg : Nat.gcd m (2 ^ 64) ≠ 1 := by
    intro hc
    have h2 : 2 ∣ Nat.gcd m (2 ^ 64) := Nat.dvd_gcd (Nat.dvd_of_mod_eq_zero h) (by norm_num)
    rw [hc] at h2
    omega
  rw [if_neg hg]
  rfl

/-- Non-vacuity: `2^256 - 1` is an odd modulus of 256 bits. -/
example : ∃ M, montParams (2 ^ 256 - 1) = .ok M ∧ M.Valid (2 ^ 256 - 1) := by
  obtain ⟨M, h, -, -, -, -, -, hv⟩ := mont_params_valid (m := 2 ^ 256 - 1) (by norm_num) (by norm_num) (by norm_num)
  exact ⟨M, h, hv⟩

end Programs
end Spartan
