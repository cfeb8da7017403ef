import Verif.Model.Grain
import Mathlib.Analysis.SpecialFunctions.Log.Base
import Mathlib.LinearAlgebra.Eigenspace.Basic
import Mathlib.LinearAlgebra.Matrix.ToLin

/-!
The rest of `packages/poseidon/sage/generate_params_poseidon.sage`: how the numbers of rounds are chosen and how a
candidate for the matrix is tested (`Model/Grain` has the generator, the constants and the candidate).  Simplifications:
floating-point logarithms and the factor 1.075 are exact; subspaces are Mathlib's submodules instead of bases; the tests
are propositions, true when the script's function returns `[True, _]`.  Not modelled: printing, `alpha = -1` and
`field = 0`.
-/

namespace Spartan.Grain

/-- `sat_inequiv_alpha`, l. 53–65, for `alpha > 0`; `n` is the global `FIELD_SIZE`. -/
def SatInequiv (p n t alpha m rf rp : ℕ) : Prop :=
  let rf1 : ℤ := open Classical in
    if (m : ℝ) ≤ (⌊Real.logb 2 p - ((alpha : ℝ) - 1) / 2⌋ : ℝ) * ((t : ℝ) + 1) then 6 else 10
  let rf2 : ℤ := 1 + ⌈Real.logb alpha 2 * (min m n : ℕ)⌉ + ⌈Real.logb alpha t⌉ - rp
  let rf3 : ℝ := 1 + Real.logb alpha 2 * min ((m : ℝ) / 3) (Real.logb 2 p / 2) - rp
  let rf4 : ℝ := (t : ℝ) - 1 + min (Real.logb alpha 2 * m / ((t : ℝ) + 1)) (Real.logb alpha 2 * Real.logb 2 p / 2) - rp
  max (max rf1 rf2) (max ⌈rf3⌉ ⌈rf4⌉) ≤ rf

/-- `get_sbox_cost`, l. 79–80. -/
def sboxCost (t rf rp : ℕ) : ℕ := t * rf + rp

/-- What the loops of `find_FD_round_numbers` carry, l. 94–97: `R_P`, `R_F`, `min_cost` (`none` for infinity) and
`max_cost_rf`. -/
structure Best where
  rp : ℕ
  rf : ℕ
  cost : Option ℕ
  maxRf : ℕ
  deriving DecidableEq

/-- The body of the inner loop, l. 101–111, with `security_margin = True`.  `R_P_t` is assigned in the body, so the next
turns of the inner loop see the new value; it is the first component. -/
def roundsStep (sat : ℕ → ℕ → Bool) (t : ℕ) (s : ℕ × Best) (rfT : ℕ) : ℕ × Best :=
  if rfT % 2 = 0 then
    if sat rfT s.1 then
      let rf := rfT + 2
      let rp := (s.1 * 1075 + 999) / 1000
      let cost := sboxCost t rf rp
      let better := match s.2.cost with
        | none => true
        | some c => decide (cost < c) || (decide (cost = c) && decide (rf < s.2.maxRf))
      (rp, if better then ⟨rp, rf, some cost, rf⟩ else s.2)
    else s
  else s

/-- `find_FD_round_numbers`, l. 89–112, as called by `calc_final_numbers_fixed` (l. 114–119); gives `(R_F, R_P)`. -/
def findRounds (sat : ℕ → ℕ → Bool) (t : ℕ) : ℕ × ℕ :=
  let b := (List.range' 1 499).foldl
    (fun b rpT => ((List.range' 4 96).foldl (roundsStep sat t) (rpT, b)).2) ⟨0, 0, none, 0⟩
  (b.rf, b.rp)

section tests
variable {p t : ℕ} [Fact p.Prime] [NeZero t]

/-- `generate_vectorspace`, l. 293–314, with `s = 1`: all vectors for round 0, otherwise the vectors with first entry 0
that the first rows of the first `r - 1` powers of the matrix (without their first entry) send to 0. -/
def roundSpace (M : Matrix (Fin t) (Fin t) (ZMod p)) (r : ℕ) : Submodule (ZMod p) (Fin t → ZMod p) where
  carrier := {v | r ≠ 0 → v 0 = 0 ∧ ∀ i < r - 1, (Matrix.mulVec (M ^ (i + 1)) v) 0 = 0}
  add_mem' {a b} ha hb hr := by
    refine ⟨by simp [(ha hr).1, (hb hr).1], fun i hi => ?_⟩
    rw [Matrix.mulVec_add, Pi.add_apply, (ha hr).2 i hi, (hb hr).2 i hi, add_zero]
  zero_mem' _ := ⟨rfl, fun i _ => by rw [Matrix.mulVec_zero]; rfl⟩
  smul_mem' c v hv hr := by
    refine ⟨by simp [(hv hr).1], fun i hi => ?_⟩
    rw [Matrix.mulVec_smul, Pi.smul_apply, (hv hr).2 i hi, smul_zero]

/-- `IS` of `algorithm_1`, l. 348–356: spanned by the vectors of the round space in some eigenspace of `M ^ i` for an
eigenvalue in the field. -/
def eigenPart (M : Matrix (Fin t) (Fin t) (ZMod p)) (i : ℕ) : Submodule (ZMod p) (Fin t → ZMod p) :=
  ⨆ μ : ZMod p, roundSpace M i ⊓ Module.End.eigenspace (Matrix.mulVecLin (M ^ i)) μ

/-- `algorithm_1`, l. 327–365, with `s = 1` and so `r = t - 1`. -/
def Alg1 (M : Matrix (Fin t) (Fin t) (ZMod p)) : Prop :=
  ∀ i, 1 ≤ i → i ≤ t - 1 →
    M ^ i ≠ ((M ^ i) 0 0) • (1 : Matrix (Fin t) (Fin t) (ZMod p)) ∧
    ¬ (eigenPart M i ≠ ⊥ ∧ eigenPart M i ≠ ⊤) ∧
    ∀ j, 1 ≤ j → j ≤ i → roundSpace M i ≠ (roundSpace M i).map (Matrix.mulVecLin (M ^ j))

/-- The loop of `algorithm_2`, l. 386–394, with the vector `v` and the space `IS`.  Every turn that does not leave the loop
raises the dimension, so `t` turns are enough; `fuel` counts them. -/
def alg2Loop (M : Matrix (Fin t) (Fin t) (ZMod p)) (full : Submodule (ZMod p) (Fin t → ZMod p)) :
    ℕ → (Fin t → ZMod p) → Submodule (ZMod p) (Fin t → ZMod p) → Prop
  | 0, _, _ => False
  | fuel + 1, v, IS =>
    let v' := M.mulVec v
    let IS' := IS ⊔ Submodule.span (ZMod p) {v'}
    if Module.finrank (ZMod p) IS' = t ∨ IS' ⊓ full ≠ IS' then True
    else if Module.finrank (ZMod p) IS' ≤ Module.finrank (ZMod p) IS then False
    else alg2Loop M full fuel v' IS'

/-- `algorithm_2`, l. 368–403, with `s = 1`: the only index set is `{0}`, and `full_iota_space` is spanned by the first
and all other unit vectors. -/
def Alg2 (M : Matrix (Fin t) (Fin t) (ZMod p)) : Prop :=
  alg2Loop M (Submodule.span (ZMod p) ({Pi.single 0 1} ∪ (fun i => Pi.single i 1) '' {i : Fin t | 1 ≤ i.val}))
    t (Pi.single 0 1) (Submodule.span (ZMod p) {Pi.single 0 1})

/-- `algorithm_3`, l. 406–445 (the commented-out part left out). -/
def Alg3 (M : Matrix (Fin t) (Fin t) (ZMod p)) : Prop := ∀ r, 2 ≤ r → r ≤ 4 * t → Alg2 (M ^ r)

end tests

open Classical in
/-- `generate_matrix`, l. 447–469, for `field = 1`: candidates are drawn until one passes the three tests. -/
noncomputable def generateMatrix (p fuel n t : ℕ) [Fact p.Prime] [NeZero t] :
    ℕ → List Bool → Option ((Fin t → Fin t → ZMod p) × List Bool)
  | 0, _ => none
  | k + 1, s => do
    let (m, s) ← createMds p fuel n t fuel s
    if Alg1 (Matrix.of m) ∧ Alg2 (Matrix.of m) ∧ Alg3 (Matrix.of m) then some (m, s)
    else generateMatrix p fuel n t k s

open Classical in
/-- The whole script, l. 147–149 and 510–517: the numbers of full and partial rounds, the round constants and the matrix. -/
noncomputable def wholeScript (p fuel field sbox n t alpha m : ℕ) [Fact p.Prime] [NeZero t] :
    Option ((ℕ × ℕ) × List ℕ × (Fin t → Fin t → ZMod p)) := do
  let r := findRounds (fun rf rp => decide (SatInequiv p n t alpha m rf rp)) t
  let s := warm 160 (initSeq field sbox n t r.1 r.2)
  let (rc, s) ← constants p fuel n ((r.1 + r.2) * t) s
  let (mat, _) ← generateMatrix p fuel n t fuel s
  pure (r, rc, mat)

end Spartan.Grain
