import Verif.Model.R1CS
import Verif.Spec.R1CS
import Verif.Props.Poly

/-! Lemmas about instance construction. -/

set_option linter.unusedSectionVars false

namespace Spartan
open Spec
variable {F G P : Type} [Field F] [AddCommGroup G] [Module F G]
  [DecidableEq F] [DecidableEq P] [DecidableEq G]

/-! ### powers of two -/

theorem nextPow2_pow (k : Nat) : nextPow2 (2 ^ k) = 2 ^ k := by
  unfold nextPow2; rw [Nat.clog_pow _ _ (by norm_num)]

theorem le_nextPow2 (n : Nat) : n ≤ nextPow2 n := Nat.le_pow_clog (by norm_num) n

theorem varsPadded_eq (nv ni : Nat) : varsPadded nv ni = nextPow2 (max nv (ni + 1)) := by
  unfold varsPadded
  simp only
  split
  · rfl
  · rename_i h; exact (not_not.1 h).symm

theorem varsPadded_pow (nv ni : Nat) : varsPadded nv ni = 2 ^ Nat.clog 2 (max nv (ni + 1)) := by
  rw [varsPadded_eq]; rfl

theorem le_varsPadded (nv ni : Nat) : nv ≤ varsPadded nv ni ∧ ni < varsPadded nv ni := by
  rw [varsPadded_eq]
  have := le_nextPow2 (max nv (ni + 1))
  omega

theorem consPadded_eq (n : Nat) :
    consPadded n = if n = 0 then 1 else if n = 1 then 2 else nextPow2 n := by
  by_cases h0 : n = 0
  · subst h0; rfl
  by_cases h1 : n = 1
  · subst h1
    have : nextPow2 1 = 1 := nextPow2_pow 0
    simp [consPadded, this]
  unfold consPadded
  simp only [h0, h1, or_self, if_false]
  split
  · rfl
  · rename_i h; exact (not_not.1 h).symm

theorem consPadded_pow (n : Nat) : ∃ k, consPadded n = 2 ^ k ∧ (1 ≤ n → 1 ≤ k) := by
  rw [consPadded_eq]
  by_cases h0 : n = 0
  · exact ⟨0, by simp [h0], by omega⟩
  by_cases h1 : n = 1
  · exact ⟨1, by simp [h1], fun _ => le_rfl⟩
  refine ⟨Nat.clog 2 n, by simp [h0, h1, nextPow2], fun _ => ?_⟩
  exact Nat.clog_pos (by norm_num) (by omega)

theorem le_consPadded (n : Nat) : n ≤ consPadded n := by
  rw [consPadded_eq]
  split
  · omega
  split
  · omega
  · exact le_nextPow2 n

theorem log2_pow (k : Nat) : log2 (2 ^ k) = .ok k := by
  unfold log2 log2ceil
  rw [check_true (by positivity), ok_bind, pure_ok, Nat.clog_pow _ _ (by norm_num)]

/-! ### matrix rows -/

theorem triples_entriesOf (nx ny : Nat) (M : List (Nat × Nat × F)) :
    (⟨nx, ny, entriesOf M⟩ : SparseMat F).triples = M := by
  simp [SparseMat.triples, entriesOf, Function.comp_def]

theorem rowDot_eq {M : List (Nat × Nat × F)} {z : List F} (i : Nat)
    (h : ∀ e ∈ M, e.2.1 < z.length) :
    rowDot M z i = (M.map fun e => if e.1 = i then e.2.2 * z.getD e.2.1 0 else 0).sum := by
  have := matEntry_row_sum (⟨0, 0, entriesOf M⟩ : SparseMat F) i z.length (fun j => z.getD j 0)
    (by intro e he
        simp only [entriesOf, List.mem_map] at he
        obtain ⟨a, ha, rfl⟩ := he
        exact h a ha)
  rw [triples_entriesOf] at this
  unfold rowDot
  rw [this]
  simp [entriesOf, Function.comp_def]

/-! ### conversion of entries -/

/-- An entry `Instance::new` accepts. -/
def EntryOk (K : Codec F) (nc nv ni : Nat) (e : Nat × Nat × List UInt8) : Prop :=
  e.1 < nc ∧ e.2.1 < nv + ni + 1 ∧ (K.fromBytes e.2.2).isSome

instance (K : Codec F) (nc nv ni : Nat) (e : Nat × Nat × List UInt8) :
    Decidable (EntryOk K nc nv ni e) := by unfold EntryOk; infer_instance

/-- The error reported for an entry: bad index first, then bad value. -/
def entryErr (nc nv ni : Nat) (e : Nat × Nat × List UInt8) : RErr :=
  if nc ≤ e.1 ∨ nv + ni + 1 ≤ e.2.1 then .invalidIndex else .invalidScalar

/-- The field values of the entries. -/
def parsed (K : Codec F) (M : List (Nat × Nat × List UInt8)) : List (Nat × Nat × F) :=
  M.map fun e => (e.1, e.2.1, (K.fromBytes e.2.2).getD 0)

/-- Column renumbering. -/
def shiftCol (nv nvp col : Nat) : Nat := if col ≥ nv then col + nvp - nv else col

theorem convEntries_eq (K : Codec F) (nc nv ni nvp : Nat) : ∀ M : List (Nat × Nat × List UInt8),
    convEntries K nc nv ni nvp M =
      match M.find? (fun e => ¬ EntryOk K nc nv ni e) with
      | some e => .error (entryErr nc nv ni e)
      | none => .ok ((parsed K M).map fun e => (e.1, shiftCol nv nvp e.2.1, e.2.2))
  | [] => rfl
  | (row, col, bs) :: es => by
    unfold convEntries
    by_cases h1 : row ≥ nc
    · have : ¬ EntryOk K nc nv ni (row, col, bs) := fun h => by have := h.1; simp at this; omega
      rw [if_pos h1, List.find?_cons_of_pos (by simpa using this)]
      simp [entryErr, h1]
    rw [if_neg h1]
    by_cases h2 : col ≥ nv + 1 + ni
    · have : ¬ EntryOk K nc nv ni (row, col, bs) := fun h => by have := h.2.1; simp at this; omega
      rw [if_pos h2, List.find?_cons_of_pos (by simpa using this)]
      simp only [entryErr]
      rw [if_pos (by right; simp; omega)]
    rw [if_neg h2]
    cases hb : K.fromBytes bs with
    | none =>
      have : ¬ EntryOk K nc nv ni (row, col, bs) := fun h => by have := h.2.2; simp [hb] at this
      rw [List.find?_cons_of_pos (by simpa using this)]
      simp only [entryErr]
      rw [if_neg (by simp; omega)]
    | some v =>
      have : EntryOk K nc nv ni (row, col, bs) := ⟨by simp; omega, by simp; omega, by simp [hb]⟩
      rw [List.find?_cons_of_neg (by simpa using this)]
      simp only
      rw [convEntries_eq K nc nv ni nvp es]
      cases es.find? (fun e => ¬ EntryOk K nc nv ni e) with
      | some e => rfl
      | none => simp [parsed, shiftCol, hb]

/-- Padding rows added when there are at most one constraints. -/
def padRows (nc nv ncp len : Nat) : List (Nat × Nat × F) :=
  if nc = 0 ∨ nc = 1 then (List.range (ncp - len)).map fun i => (len + i, nv, 0) else []

/-- The converted matrix of a valid list of entries. -/
def convMat (K : Codec F) (nc nv ni : Nat) (M : List (Nat × Nat × List UInt8)) :
    List (Nat × Nat × F) :=
  ((parsed K M).map fun e => (e.1, shiftCol nv (varsPadded nv ni) e.2.1, e.2.2)) ++
    padRows nc nv (consPadded nc) M.length

theorem bytesToScalar_eq (K : Codec F) (nc nv ni : Nat) (M : List (Nat × Nat × List UInt8)) :
    bytesToScalar K nc nv ni (varsPadded nv ni) (consPadded nc) M =
      match M.find? (fun e => ¬ EntryOk K nc nv ni e) with
      | some e => .error (entryErr nc nv ni e)
      | none => .ok (convMat K nc nv ni M) := by
  unfold bytesToScalar
  rw [convEntries_eq]
  cases M.find? (fun e => ¬ EntryOk K nc nv ni e) with
  | some e => rfl
  | none =>
    simp only [convMat, padRows]
    split <;> simp

theorem convMat_range {K : Codec F} {nc nv ni : Nat} {M : List (Nat × Nat × List UInt8)}
    (h : ∀ e ∈ M, EntryOk K nc nv ni e) :
    ∀ e ∈ convMat K nc nv ni M, e.1 < consPadded nc ∧ e.2.1 < varsPadded nv ni + ni + 1 := by
  have hv := le_varsPadded nv ni
  intro e he
  rw [convMat, List.mem_append] at he
  rcases he with he | he
  · simp only [parsed, List.map_map, List.mem_map, Function.comp] at he
    obtain ⟨a, ha, rfl⟩ := he
    obtain ⟨h1, h2, -⟩ := h a ha
    refine ⟨lt_of_lt_of_le h1 (le_consPadded nc), ?_⟩
    simp only [shiftCol]
    split <;> omega
  · unfold padRows at he
    split at he
    · simp only [List.mem_map, List.mem_range] at he
      obtain ⟨i, hi, rfl⟩ := he
      exact ⟨by simp; omega, by simp; omega⟩
    · simp at he

theorem R1CS.new_eq {k j ni : Nat} (A B C : List (Nat × Nat × F)) (h : ni < 2 ^ j) :
    R1CS.new (2 ^ k) (2 ^ j) ni A B C = .ok ⟨2 ^ k, 2 ^ j, ni, ⟨k, j + 1, entriesOf A⟩,
      ⟨k, j + 1, entriesOf B⟩, ⟨k, j + 1, entriesOf C⟩⟩ := by
  unfold R1CS.new
  rw [check_true (nextPow2_pow k), ok_bind, check_true (nextPow2_pow j), ok_bind, check_true h,
    ok_bind, log2_pow, ok_bind, show 2 * 2 ^ j = 2 ^ (j + 1) by rw [pow_succ]; ring, log2_pow, ok_bind]
  rfl

/-- The instance built from valid entries. -/
def builtR1CS (K : Codec F) (nc nv ni : Nat) (A B C : List (Nat × Nat × List UInt8)) : R1CS F :=
  let k := Nat.log2 (consPadded nc)
  let j := Nat.log2 (varsPadded nv ni)
  ⟨consPadded nc, varsPadded nv ni, ni, ⟨k, j + 1, entriesOf (convMat K nc nv ni A)⟩,
    ⟨k, j + 1, entriesOf (convMat K nc nv ni B)⟩, ⟨k, j + 1, entriesOf (convMat K nc nv ni C)⟩⟩

theorem R1CS.new_built (K : Codec F) (nc nv ni : Nat) (A B C : List (Nat × Nat × List UInt8)) :
    R1CS.new (consPadded nc) (varsPadded nv ni) ni (convMat K nc nv ni A) (convMat K nc nv ni B)
      (convMat K nc nv ni C) = .ok (builtR1CS K nc nv ni A B C) := by
  obtain ⟨k, hk, -⟩ := consPadded_pow nc
  have hj := varsPadded_pow nv ni
  have hlt := (le_varsPadded nv ni).2
  unfold builtR1CS
  rw [hj] at hlt ⊢
  rw [hk, R1CS.new_eq _ _ _ hlt, Nat.log2_two_pow, Nat.log2_two_pow]

/-! ### rows of the padded system -/

theorem fit_length (n : Nat) (l : List F) : (fit n l).length = n := by
  simp [fit]; omega

theorem fit_getD {n i : Nat} (l : List F) (h : i < n) : (fit n l).getD i 0 = l.getD i 0 := by
  unfold fit
  simp only [List.getD_eq_getElem?_getD]
  rw [List.getElem?_take_of_lt h]
  by_cases hi : i < l.length
  · rw [List.getElem?_append_left hi]
  · rw [List.getElem?_append_right (by omega), List.getElem?_eq_none (l := l) (by omega),
      List.getElem?_replicate]
    split <;> rfl

theorem zvec_getD_lt {vars inputs : List F} {i : Nat} (h : i < vars.length) :
    (zvec vars inputs).getD i 0 = vars.getD i 0 := by
  simp only [zvec, List.getD_eq_getElem?_getD]
  rw [List.getElem?_append_left h]

theorem zvec_getD_ge (vars inputs : List F) (i : Nat) :
    (zvec vars inputs).getD (vars.length + i) 0 = (1 :: inputs).getD i 0 := by
  simp only [zvec, List.getD_eq_getElem?_getD]
  rw [List.getElem?_append_right (by omega)]
  simp

theorem convMat_rowDot {K : Codec F} {nc nv ni : Nat} {M : List (Nat × Nat × List UInt8)}
    (h : ∀ e ∈ M, EntryOk K nc nv ni e) {vars inputs : List F}
    (hi : inputs.length = ni) (i : Nat) :
    rowDot (convMat K nc nv ni M) (zvec (fit (varsPadded nv ni) vars) inputs) i =
      rowDot (parsed K M) (zvec (fit nv vars) inputs) i := by
  have hv := le_varsPadded nv ni
  rw [rowDot_eq, rowDot_eq]
  · rw [convMat, List.map_append, List.sum_append, List.map_map]
    have e2 : ((padRows nc nv (consPadded nc) M.length : List (Nat × Nat × F)).map fun e => if e.1 = i then
        e.2.2 * (zvec (fit (varsPadded nv ni) vars) inputs).getD e.2.1 0 else 0).sum = 0 := by
      apply List.sum_eq_zero
      intro x hx
      unfold padRows at hx
      split at hx
      · simp only [List.map_map, List.mem_map, Function.comp] at hx
        obtain ⟨a, -, rfl⟩ := hx
        simp
      · simp at hx
    rw [e2, add_zero]
    congr 1
    apply List.map_congr_left
    intro e he
    simp only [parsed, List.mem_map] at he
    obtain ⟨a, ha, rfl⟩ := he
    obtain ⟨-, hc, -⟩ := h a ha
    simp only [Function.comp]
    congr 2
    unfold shiftCol
    split
    · rename_i hge
      obtain ⟨t, ht⟩ : ∃ t, a.2.1 = nv + t := ⟨a.2.1 - nv, by omega⟩
      have e1 := zvec_getD_ge (fit (varsPadded nv ni) vars) inputs t
      have e2 := zvec_getD_ge (fit nv vars) inputs t
      rw [fit_length] at e1 e2
      rw [ht, show nv + t + varsPadded nv ni - nv = varsPadded nv ni + t by omega, e1, e2]
    · rw [zvec_getD_lt (by rw [fit_length]; omega), zvec_getD_lt (by rw [fit_length]; omega),
        fit_getD _ (by omega), fit_getD _ (by omega)]
  · intro e he
    simp only [parsed, List.mem_map] at he
    obtain ⟨a, ha, rfl⟩ := he
    have := (h a ha).2.1
    simp [zvec, fit_length, hi]; omega
  · intro e he
    have := (convMat_range h e he).2
    simp [zvec, fit_length, hi]; omega

theorem convMat_row_ge {K : Codec F} {nc nv ni : Nat} {M : List (Nat × Nat × List UInt8)}
    (h : ∀ e ∈ M, EntryOk K nc nv ni e) {z : List F} {i : Nat} (hi : nc ≤ i) :
    rowDot (parsed K M) z i = 0 := by
  unfold rowDot
  apply Finset.sum_eq_zero
  intro j _
  have : matEntry (parsed K M) i j = 0 := by
    apply List.sum_eq_zero
    intro x hx
    simp only [parsed, List.map_map, List.mem_map, Function.comp] at hx
    obtain ⟨a, ha, rfl⟩ := hx
    have := (h a ha).1
    rw [if_neg]; omega
  rw [this, zero_mul]

end Spartan
