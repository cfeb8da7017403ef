import Verif.Lemmas.R1CS
import Verif.Lemmas.SumcheckSound
import Mathlib.Data.Rat.Defs
import Mathlib.Algebra.Field.Rat

/-! C31–C36: R1CS instances and assignments. -/

set_option linter.unusedSectionVars false

namespace Spartan
open Spec
variable {F G P : Type} [Field F] [AddCommGroup G] [Module F G]
  [DecidableEq F] [DecidableEq P] [DecidableEq G]

/-! ### C31 -/

/-- C31: `Instance::new` never panics; it returns `Ok` with an instance of the padded sizes when
all entries are valid, and otherwise the error of the first invalid entry (index errors before
value errors within one entry; matrices in the order A, B, C). -/
theorem instance_new_result (K : Codec F) (nc nv ni : Nat) (A B C : List (Nat × Nat × List UInt8)) :
    Inst.new K nc nv ni A B C =
      match (A ++ B ++ C).find? (fun e => ¬ EntryOk K nc nv ni e) with
      | some e => .ok (.error (entryErr nc nv ni e))
      | none => .ok (.ok ⟨builtR1CS K nc nv ni A B C, K.digest (builtR1CS K nc nv ni A B C)⟩) := by
  unfold Inst.new
  simp only [bytesToScalar_eq, List.find?_append]
  cases A.find? (fun e => ¬ EntryOk K nc nv ni e) with
  | some e => rfl
  | none =>
    cases B.find? (fun e => ¬ EntryOk K nc nv ni e) with
    | some e => rfl
    | none =>
      cases C.find? (fun e => ¬ EntryOk K nc nv ni e) with
      | some e => rfl
      | none =>
        simp only [Option.none_or]
        rw [R1CS.new_built, ok_bind]; rfl

/-- C31: construction succeeds exactly on valid entries. -/
theorem instance_new_ok_iff (K : Codec F) (nc nv ni : Nat) (A B C : List (Nat × Nat × List UInt8)) :
    (∃ I, Inst.new K nc nv ni A B C = .ok (.ok I)) ↔
      ∀ e ∈ A ++ B ++ C, e.1 < nc ∧ e.2.1 < nv + ni + 1 ∧ (K.fromBytes e.2.2).isSome := by
  rw [instance_new_result]
  have key : (A ++ B ++ C).find? (fun e => ¬ EntryOk K nc nv ni e) = none ↔
      ∀ e ∈ A ++ B ++ C, e.1 < nc ∧ e.2.1 < nv + ni + 1 ∧ (K.fromBytes e.2.2).isSome := by
    rw [List.find?_eq_none]
    simp only [decide_not, Bool.not_eq_true', decide_eq_false_iff_not, not_not]
    exact Iff.rfl
  rw [← key]
  cases (A ++ B ++ C).find? (fun e => ¬ EntryOk K nc nv ni e) with
  | some e => simp
  | none => simp

/-- C31: failures are reported as errors, never as panics. -/
theorem instance_new_no_panic (K : Codec F) (nc nv ni : Nat)
    (A B C : List (Nat × Nat × List UInt8)) :
    Inst.new K nc nv ni A B C ≠ .error .panic := by
  rw [instance_new_result]
  split <;> simp

/-- C31: sizes of the constructed instance: variables and constraints are padded to powers of two,
with room for the constant and the inputs. -/
theorem instance_new_sizes {K : Codec F} {nc nv ni : Nat} {A B C : List (Nat × Nat × List UInt8)}
    {I : Inst F} (h : Inst.new K nc nv ni A B C = .ok (.ok I)) :
    (∃ k, I.inst.numCons = 2 ^ k) ∧ (∃ j, I.inst.numVars = 2 ^ j) ∧ nc ≤ I.inst.numCons ∧
      nv ≤ I.inst.numVars ∧ I.inst.numInputs = ni ∧ ni + 1 ≤ I.inst.numVars := by
  rw [instance_new_result] at h
  split at h
  · simp at h
  · simp only [Except.ok.injEq] at h
    subst h
    obtain ⟨k, hk, -⟩ := consPadded_pow nc
    have := le_varsPadded nv ni
    exact ⟨⟨k, hk⟩, ⟨_, varsPadded_pow nv ni⟩, le_consPadded nc, this.1, rfl, this.2⟩

/-! ### C32 -/

theorem new_ok_entries {K : Codec F} {nc nv ni : Nat} {A B C : List (Nat × Nat × List UInt8)}
    {I : Inst F} (h : Inst.new K nc nv ni A B C = .ok (.ok I)) :
    (∀ e ∈ A, EntryOk K nc nv ni e) ∧ (∀ e ∈ B, EntryOk K nc nv ni e) ∧
      (∀ e ∈ C, EntryOk K nc nv ni e) ∧
      I = ⟨builtR1CS K nc nv ni A B C, K.digest (builtR1CS K nc nv ni A B C)⟩ := by
  have := (instance_new_ok_iff K nc nv ni A B C).1 ⟨I, h⟩
  refine ⟨fun e he => this e (by simp [he]), fun e he => this e (by simp [he]),
    fun e he => this e (by simp [he]), ?_⟩
  rw [instance_new_result] at h
  split at h
  · simp at h
  · simp only [Except.ok.injEq] at h
    exact h.symm

theorem padVars_eq {vars : List F} {n : Nat} (h : vars.length ≤ n) : padVars vars n = .ok (fit n vars) := by
  unfold padVars
  split
  · rename_i hlt
    unfold assignmentPad
    rw [check_true hlt, ok_bind, pure_ok]
    congr 1
    rw [fit, List.take_of_length_le (by simp; omega)]
  · congr 1
    rw [fit, show n - vars.length = 0 by omega]
    simp only [List.replicate_zero, List.append_nil]
    rw [List.take_of_length_le (by omega)]

theorem r1cs_isSat_eq {I : R1CS F} {vars input : List F} (hv : vars.length = I.numVars)
    (hi : input.length = I.numInputs)
    (hA : I.A.InRange I.numCons (I.numVars + I.numInputs + 1))
    (hB : I.B.InRange I.numCons (I.numVars + I.numInputs + 1))
    (hC : I.C.InRange I.numCons (I.numVars + I.numInputs + 1)) :
    ∃ b, I.isSat vars input = .ok b ∧
      (b = true ↔ Sat I.A.triples I.B.triples I.C.triples I.numCons (zvec vars input)) := by
  have hz : (vars ++ [1] ++ input).length = I.numVars + I.numInputs + 1 := by simp; omega
  have hz' : vars ++ [1] ++ input = zvec vars input := by simp [zvec]
  obtain ⟨a, a1, a2, a3⟩ := multiplyVec_correct I.A I.numCons _ _ hz hA
  obtain ⟨b, b1, b2, b3⟩ := multiplyVec_correct I.B I.numCons _ _ hz hB
  obtain ⟨c, c1, c2, c3⟩ := multiplyVec_correct I.C I.numCons _ _ hz hC
  unfold R1CS.isSat
  rw [check_true hv, ok_bind, check_true hi, ok_bind]
  simp only
  rw [a1, ok_bind, b1, ok_bind, c1, ok_bind, check_true a2, ok_bind, check_true b2, ok_bind,
    check_true c2, ok_bind]
  refine ⟨_, rfl, ?_⟩
  simp only [decide_eq_true_eq, List.sum_eq_zero_iff, List.mem_map, List.mem_range,
    forall_exists_index, and_imp, forall_apply_eq_imp_iff₂]
  unfold Sat rowDot
  rw [← hz', hz]
  refine forall_congr' fun i => forall_congr' fun hi => ?_
  rw [a3 i hi, b3 i hi, c3 i hi]
  simp

/-- C32: for the instance built from valid entries, `is_sat` on any variables that fit (they are
cut or zero-extended to the declared number) decides satisfaction of the original, unpadded
system by `(vars, 1, inputs)`. -/
theorem padding_preserves_sat {K : Codec F} {nc nv ni : Nat} {A B C : List (Nat × Nat × List UInt8)}
    {I : Inst F} (h : Inst.new K nc nv ni A B C = .ok (.ok I)) {vars inputs : List F}
    (hv : vars.length ≤ I.inst.numVars) (hi : inputs.length = ni) :
    ∃ b, I.isSat vars inputs = .ok (.ok b) ∧
      (b = true ↔ Sat (parsed K A) (parsed K B) (parsed K C) nc (zvec (fit nv vars) inputs)) := by
  obtain ⟨hA, hB, hC, rfl⟩ := new_ok_entries h
  have rg : ∀ M, (∀ e ∈ M, EntryOk K nc nv ni e) → ∀ nx ny, (⟨nx, ny, entriesOf (convMat K nc nv ni M)⟩ :
      SparseMat F).InRange (consPadded nc) (varsPadded nv ni + ni + 1) := by
    intro M hM nx ny e he
    simp only [entriesOf, List.mem_map] at he
    obtain ⟨a, ha, rfl⟩ := he
    exact convMat_range hM a ha
  unfold Inst.isSat
  simp only
  rw [if_neg (Nat.not_lt.2 hv), if_neg (by simp [builtR1CS, hi]), padVars_eq hv, ok_bind]
  obtain ⟨b, hb, hs⟩ := r1cs_isSat_eq (I := builtR1CS K nc nv ni A B C)
    (vars := fit (varsPadded nv ni) vars) (input := inputs) (fit_length _ _) hi (rg A hA _ _)
    (rg B hB _ _) (rg C hC _ _)
  refine ⟨b, ?_, ?_⟩
  · rw [show (builtR1CS K nc nv ni A B C).numVars = varsPadded nv ni from rfl, hb, ok_bind]; rfl
  · rw [hs]
    simp only [builtR1CS, triples_entriesOf]
    unfold Sat
    simp only [convMat_rowDot hA hi, convMat_rowDot hB hi, convMat_rowDot hC hi]
    constructor
    · intro h i hlt
      exact h i (lt_of_lt_of_le hlt (le_consPadded nc))
    · intro h i _
      by_cases hlt : i < nc
      · exact h i hlt
      · rw [convMat_row_ge hA (by omega), convMat_row_ge hC (by omega), zero_mul]

/-- C32/C34: wrong lengths are reported. -/
theorem isSat_wrong_length (I : Inst F) (vars inputs : List F)
    (h : I.inst.numVars < vars.length ∨ inputs.length ≠ I.inst.numInputs) :
    I.isSat vars inputs = .ok (.error .invalidNumberOfInputs) := by
  unfold Inst.isSat
  by_cases h1 : vars.length > I.inst.numVars
  · rw [if_pos h1]
  · rw [if_neg h1, if_pos (by rcases h with h | h; · omega
                              · exact h)]

/-- Byte strings of length one or two as a toy scalar encoding, for the examples. -/
def toyCodec : Codec ℚ := ⟨fun bs => match bs with
  | [b] => some (b.toNat : ℚ)
  | _ => none, fun _ => []⟩

/-- Three constraints, three variables, one input: `v0 * v1 = v2`, `v2 * 1 = x`, `x * 0 = 0`. -/
example : ∃ I, Inst.new toyCodec 3 3 1 [(0, 0, [1]), (1, 2, [1]), (2, 4, [1])]
    [(0, 1, [1]), (1, 3, [1])] [(0, 2, [1]), (1, 4, [1])] = .ok (.ok I) := by
  rw [instance_new_ok_iff]
  decide

example : Sat (parsed toyCodec [(0, 0, [1]), (1, 2, [1]), (2, 4, [1])])
    (parsed toyCodec [(0, 1, [1]), (1, 3, [1])]) (parsed toyCodec [(0, 2, [1]), (1, 4, [1])]) 3
    (zvec (fit 3 [2, 3, 6]) [6]) := by
  intro i hi
  interval_cases i <;>
    norm_num [rowDot, parsed, toyCodec, matEntry, zvec, fit, Finset.sum_range_succ,
      show UInt8.toNat 1 = 1 from rfl]

/-- Out-of-range row, then invalid scalar: the first offending entry decides. -/
example : Inst.new toyCodec 3 3 1 [(3, 0, [1]), (0, 0, [])] [] [] = .ok (.error .invalidIndex) ∧
    Inst.new toyCodec 3 3 1 [(0, 0, [])] [(3, 0, [1])] [] = .ok (.error .invalidScalar) := by
  constructor <;> rw [instance_new_result] <;> rfl

/-! ### C33 -/

/-- C33, the part that holds: with at least one constraint, both sum-checks of the constructed
instance have at least one round (`numCons ≥ 2`). -/
theorem instance_cons_ge_two_partial {K : Codec F} {nc nv ni : Nat}
    {A B C : List (Nat × Nat × List UInt8)} {I : Inst F}
    (h : Inst.new K nc nv ni A B C = .ok (.ok I)) (hc : 1 ≤ nc) :
    ∃ k, 1 ≤ k ∧ I.inst.numCons = 2 ^ k := by
  obtain ⟨-, -, -, rfl⟩ := new_ok_entries h
  obtain ⟨k, hk, h1⟩ := consPadded_pow nc
  exact ⟨k, h1 hc, hk⟩

/-- C33 fails for an instance without constraints: it is padded to one constraint, not two. -/
theorem instance_no_cons_padded_to_one (K : Codec F) (nv ni : Nat) :
    ∃ I, Inst.new K 0 nv ni [] [] [] = .ok (.ok I) ∧ I.inst.numCons = 1 :=
  ⟨_, by rw [instance_new_result]; rfl, rfl⟩

/-! ### C34 -/

/-- C34: `Assignment::new` returns all values in order, or `InvalidScalar`. -/
theorem assignment_new_result (K : Codec F) (vs : List (List UInt8)) :
    (∀ v ∈ vs, (K.fromBytes v).isSome) ∧
        assignmentNew K vs = .ok (vs.map fun v => (K.fromBytes v).getD 0) ∨
      (∃ v ∈ vs, K.fromBytes v = none) ∧ assignmentNew K vs = .error .invalidScalar := by
  induction vs with
  | nil => left; exact ⟨by simp, rfl⟩
  | cons v vs ih =>
    unfold assignmentNew
    cases hv : K.fromBytes v with
    | none => right; exact ⟨⟨v, by simp, hv⟩, rfl⟩
    | some x =>
      rcases ih with ⟨h1, h2⟩ | ⟨⟨w, hw, hn⟩, h2⟩
      · left
        refine ⟨?_, by rw [h2]; simp [hv]⟩
        intro w hw
        rcases List.mem_cons.1 hw with rfl | hw
        · simp [hv]
        · exact h1 w hw
      · right
        exact ⟨⟨w, by simp [hw], hn⟩, by rw [h2]⟩

theorem assignment_new_ok_iff (K : Codec F) (vs : List (List UInt8)) :
    (∃ xs, assignmentNew K vs = .ok xs) ↔ ∀ v ∈ vs, (K.fromBytes v).isSome := by
  rcases assignment_new_result K vs with ⟨h1, h2⟩ | ⟨⟨w, hw, hn⟩, h2⟩
  · exact ⟨fun _ => h1, fun _ => ⟨_, h2⟩⟩
  · constructor
    · rintro ⟨xs, hx⟩; rw [h2] at hx; cases hx
    · intro h; have := h w hw; rw [hn] at this; cases this

example : assignmentNew toyCodec [[1], [7]] = .ok [1, 7] ∧
    assignmentNew toyCodec [[1], []] = .error .invalidScalar := by
  constructor
  · simp [assignmentNew, toyCodec]
  · rfl

/-! ### C35 -/

theorem synthLoop_ok {numVars : Nat} {Z : List F} (hn : numVars < Z.length)
    (h1 : Z.getD numVars 0 = 1) : ∀ (k i : Nat),
    ∃ A B C, synthLoop numVars Z k i = .ok (A, B, C) ∧
      (∀ e ∈ A, i ≤ e.row ∧ e.row < i + k ∧ e.col < Z.length) ∧
      (∀ e ∈ B, i ≤ e.row ∧ e.row < i + k ∧ e.col < Z.length) ∧
      (∀ e ∈ C, i ≤ e.row ∧ e.row < i + k ∧ e.col < Z.length) ∧
      ∀ r, (A.map fun e => if e.row = r then e.val * Z.getD e.col 0 else 0).sum *
        (B.map fun e => if e.row = r then e.val * Z.getD e.col 0 else 0).sum =
        (C.map fun e => if e.row = r then e.val * Z.getD e.col 0 else 0).sum
  | 0, i => ⟨[], [], [], rfl, by simp, by simp, by simp, by simp⟩
  | k + 1, i => by
    obtain ⟨A, B, C, hl, hA, hB, hC, hs⟩ := synthLoop_ok hn h1 k (i + 1)
    have hz : 0 < Z.length := by omega
    have m := fun x => Nat.mod_lt x hz
    -- the entry of C
    obtain ⟨ce, hce, hcr, hcc, hcv⟩ : ∃ ce : Entry F,
        (∀ cont : Entry F → Out (List (Entry F) × List (Entry F) × List (Entry F)),
          (if Z.getD ((i + 3) % Z.length) 0 = 0 then
            (pure ⟨i, numVars, Z.getD (i % Z.length) 0 * Z.getD ((i + 2) % Z.length) 0⟩ :
              Out (Entry F)) >>= cont
           else invertU (Z.getD ((i + 3) % Z.length) 0) >>= fun inv =>
            (pure ⟨i, (i + 3) % Z.length,
              Z.getD (i % Z.length) 0 * Z.getD ((i + 2) % Z.length) 0 * inv⟩ :
              Out (Entry F)) >>= cont)
          = cont ce) ∧ ce.row = i ∧ ce.col < Z.length ∧
        ce.val * Z.getD ce.col 0 = Z.getD (i % Z.length) 0 * Z.getD ((i + 2) % Z.length) 0 := by
      by_cases h0 : Z.getD ((i + 3) % Z.length) 0 = 0
      · exact ⟨_, fun _ => by rw [if_pos h0]; rfl, rfl, hn, by simp only [h1, mul_one]⟩
      · refine ⟨_, fun _ => by rw [if_neg h0, invertU, if_neg h0]; rfl, rfl, m _, ?_⟩
        simp only
        rw [mul_assoc, inv_mul_cancel₀ h0, mul_one]
    refine ⟨_, _, _, by
      unfold synthLoop
      simp only
      rw [check_true (by omega), ok_bind, idx_ok (m _) 0, ok_bind, idx_ok (m _) 0, ok_bind,
        idx_ok (m _) 0, ok_bind, hce, hl, ok_bind]
      rfl, ?_, ?_, ?_, ?_⟩
    · intro e he
      rcases List.mem_cons.1 he with rfl | he
      · exact ⟨le_rfl, by simp, m _⟩
      · have := hA e he; omega
    · intro e he
      rcases List.mem_cons.1 he with rfl | he
      · exact ⟨le_rfl, by simp, m _⟩
      · have := hB e he; omega
    · intro e he
      rcases List.mem_cons.1 he with rfl | he
      · rw [hcr]; exact ⟨le_rfl, by omega, hcc⟩
      · have := hC e he; omega
    · intro r
      simp only [List.map_cons, List.sum_cons]
      by_cases hr : i = r
      · have z : ∀ L : List (Entry F), (∀ e ∈ L, i + 1 ≤ e.row ∧ e.row < i + 1 + k ∧ e.col < Z.length) →
            (L.map fun e => if e.row = r then e.val * Z.getD e.col 0 else 0).sum = 0 := by
          intro L hL
          apply List.sum_eq_zero
          intro x hx
          rw [List.mem_map] at hx
          obtain ⟨e, he, rfl⟩ := hx
          rw [if_neg]; have := hL e he; omega
        rw [z A hA, z B hB, z C hC, if_pos hr, if_pos hr, if_pos (hcr.trans hr), hcv]
        ring
      · rw [if_neg hr, if_neg hr, if_neg (by rw [hcr]; exact hr), zero_add, zero_add, zero_add]
        exact hs r

/-- The loop pushes one entry per row into every matrix. -/
theorem synthLoop_length {numVars : Nat} {Z : List F} : ∀ {k i : Nat} {A B C : List (Entry F)},
    synthLoop numVars Z k i = .ok (A, B, C) → A.length = k ∧ B.length = k ∧ C.length = k
  | 0, i, A, B, C, h => by
    rw [synthLoop] at h
    cases h
    simp
  | k + 1, i, A, B, C, h => by
    rw [synthLoop] at h
    obtain ⟨_, -, h⟩ := bind_ok h
    obtain ⟨_, -, h⟩ := bind_ok h
    obtain ⟨_, -, h⟩ := bind_ok h
    obtain ⟨_, -, h⟩ := bind_ok h
    simp only at h
    have key : ∀ ce : Entry F, (synthLoop numVars Z k (i + 1) >>= fun x =>
        (pure (⟨i, i % Z.length, 1⟩ :: x.1, ⟨i, (i + 2) % Z.length, 1⟩ :: x.2.1, ce :: x.2.2) :
          Out (List (Entry F) × List (Entry F) × List (Entry F)))) = .ok (A, B, C) →
        A.length = k + 1 ∧ B.length = k + 1 ∧ C.length = k + 1 := by
      intro ce h
      obtain ⟨⟨A', B', C'⟩, h1, h⟩ := bind_ok h
      have := synthLoop_length h1
      cases h
      simp [this]
    split_ifs at h with hc
    · exact key _ h
    · obtain ⟨_, -, h⟩ := bind_ok h
      exact key _ h

/-- The shape of the synthetic instance, with what `synthetic_satisfied` says of it. -/
theorem synthetic_shape (rnd : Tape F) {k j ni : Nat} (hi : ni < 2 ^ j) :
    ∃ I vars inputs, R1CS.synthetic rnd (2 ^ k) (2 ^ j) ni = .ok (I, vars, inputs) ∧
      I.numCons = 2 ^ k ∧ I.numVars = 2 ^ j ∧ I.numInputs = ni ∧
      vars.length = 2 ^ j ∧ inputs.length = ni ∧ I.isSat vars inputs = .ok true ∧
      Sat I.A.triples I.B.triples I.C.triples (2 ^ k) (zvec vars inputs) ∧
      (I.A.InRange (2 ^ k) (2 ^ j + ni + 1) ∧ I.B.InRange (2 ^ k) (2 ^ j + ni + 1) ∧
        I.C.InRange (2 ^ k) (2 ^ j + ni + 1)) ∧
      ((I.A.nx = k ∧ I.A.ny = j + 1) ∧ (I.B.nx = k ∧ I.B.ny = j + 1) ∧ (I.C.nx = k ∧ I.C.ny = j + 1)) ∧
      I.A.M.length = 2 ^ k ∧ I.B.M.length = 2 ^ k ∧ I.C.M.length = 2 ^ k := by
  set Z := ((rnd.nextVec (2 ^ j + ni + 1)).1).set (2 ^ j) 1 with hZ
  have hlen : Z.length = 2 ^ j + ni + 1 := by simp [hZ]
  have h1 : Z.getD (2 ^ j) 0 = 1 := by
    rw [hZ, List.getD_eq_getElem?_getD, List.getElem?_set_self (by simp)]; rfl
  obtain ⟨A, B, C, hl, hA, hB, hC, hs⟩ := synthLoop_ok (by omega) h1 (2 ^ k) 0
  have hzv : zvec (Z.take (2 ^ j)) (Z.drop (2 ^ j + 1)) = Z := by
    have h2 : Z.getD (2 ^ j) 0 = Z[2 ^ j]'(by omega) := by
      rw [List.getD_eq_getElem?_getD, List.getElem?_eq_getElem (by omega)]; rfl
    rw [zvec, ← h1, h2, ← List.drop_eq_getElem_cons, List.take_append_drop]
  set I : R1CS F := ⟨2 ^ k, 2 ^ j, ni, ⟨k, j + 1, A⟩, ⟨k, j + 1, B⟩, ⟨k, j + 1, C⟩⟩ with hI
  have hv : (Z.take (2 ^ j)).length = 2 ^ j := by rw [List.length_take]; omega
  have hin : (Z.drop (2 ^ j + 1)).length = ni := by rw [List.length_drop]; omega
  have rA : I.A.InRange (2 ^ k) (2 ^ j + ni + 1) := fun e he => by have := hA e he; omega
  have rB : I.B.InRange (2 ^ k) (2 ^ j + ni + 1) := fun e he => by have := hB e he; omega
  have rC : I.C.InRange (2 ^ k) (2 ^ j + ni + 1) := fun e he => by have := hC e he; omega
  obtain ⟨b, hb, hbs⟩ := r1cs_isSat_eq (I := I) (vars := Z.take (2 ^ j))
    (input := Z.drop (2 ^ j + 1)) hv hin rA rB rC
  rw [hzv] at hbs
  have hsat : Sat I.A.triples I.B.triples I.C.triples (2 ^ k) Z := by
    intro i _
    unfold rowDot
    rw [matEntry_row_sum I.A i Z.length (fun j => Z.getD j 0) (fun e he => by rw [hlen]; exact (rA e he).2),
      matEntry_row_sum I.B i Z.length (fun j => Z.getD j 0) (fun e he => by rw [hlen]; exact (rB e he).2),
      matEntry_row_sum I.C i Z.length (fun j => Z.getD j 0) (fun e he => by rw [hlen]; exact (rC e he).2)]
    exact hs i
  have hbt : b = true := hbs.2 hsat
  subst hbt
  refine ⟨I, Z.take (2 ^ j), Z.drop (2 ^ j + 1), ?_, rfl, rfl, rfl, hv, hin, hb, by rw [hzv]; exact hsat, ⟨rA, rB, rC⟩,
    ⟨⟨rfl, rfl⟩, ⟨rfl, rfl⟩, ⟨rfl, rfl⟩⟩, synthLoop_length hl⟩
  unfold R1CS.synthetic
  rw [log2_pow, ok_bind, check_true rfl, ok_bind, log2_pow, ok_bind, check_true rfl, ok_bind,
    check_true hi, ok_bind]
  simp only [← hZ]
  rw [hl, ok_bind]
  simp only
  rw [ok_bind, show 2 * 2 ^ j = 2 ^ (j + 1) by rw [pow_succ]; ring, log2_pow, ok_bind, ← hI, hb,
    ok_bind, check_true rfl, ok_bind]
  rfl

/-- C35: for power-of-two sizes and fewer inputs than variables, `produce_synthetic_r1cs` does
not panic, whatever values are drawn, and the returned assignment satisfies the instance. -/
theorem synthetic_satisfied (rnd : Tape F) {k j ni : Nat} (hi : ni < 2 ^ j) :
    ∃ I vars inputs, R1CS.synthetic rnd (2 ^ k) (2 ^ j) ni = .ok (I, vars, inputs) ∧
      I.numCons = 2 ^ k ∧ I.numVars = 2 ^ j ∧ I.numInputs = ni ∧
      vars.length = 2 ^ j ∧ inputs.length = ni ∧ I.isSat vars inputs = .ok true ∧
      Sat I.A.triples I.B.triples I.C.triples (2 ^ k) (zvec vars inputs) := by
  obtain ⟨I, vars, inputs, h, a, b, c, d, e, f, g, -⟩ := synthetic_shape rnd (k := k) hi
  exact ⟨I, vars, inputs, h, a, b, c, d, e, f, g⟩

/-- C35: the sizes are required to be powers of two. -/
theorem synthetic_panics (rnd : Tape F) {nc : Nat} (nv ni : Nat) (h : ∀ k, nc ≠ 2 ^ k) :
    R1CS.synthetic rnd nc nv ni = .error .panic := by
  unfold R1CS.synthetic log2
  by_cases h0 : nc ≠ 0
  · rw [check_true h0, ok_bind, pure_bind, check_false fun e => h _ e.symm]; rfl
  · rw [check_false h0]; rfl

end Spartan
