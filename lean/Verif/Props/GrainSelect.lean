import Verif.Model.GrainSelect
import Verif.Props.Grain

/-!
C105: the whole script that generates the Poseidon constants: it chooses eight full and 56 partial rounds, its tests accept
the first matrix, and what the tests mean.
-/

namespace Spartan

open Grain

/-! ### The numbers of rounds -/

theorem logb_5_2_bounds : (55 : ℝ) < 128 * Real.logb 5 2 ∧ 128 * Real.logb 5 2 < 56 := by
  have e : 128 * Real.logb 5 2 = Real.logb 5 (2 ^ 128) := by rw [Real.logb_pow]; norm_num
  rw [e, Real.lt_logb_iff_rpow_lt (by norm_num) (by positivity), Real.logb_lt_iff_lt_rpow (by norm_num) (by positivity)]
  constructor <;> norm_num

/-- With the arguments of `k256_params.sh` the inequalities say: at least six full rounds, and at least 58 rounds. -/
theorem satInequiv_k256 (rf rp : ℕ) : SatInequiv secpP 256 3 5 128 rf rp ↔ 6 ≤ rf ∧ 58 ≤ rf + rp := by
  obtain ⟨h1, h2⟩ := logb_5_2_bounds
  have hp1 : (255 : ℝ) ≤ Real.logb 2 secpP := by
    rw [Real.le_logb_iff_rpow_le (by norm_num) (by exact_mod_cast (by decide +kernel : 0 < secpP))]
    have : 2 ^ 255 ≤ secpP := by decide +kernel
    calc (2 : ℝ) ^ (255 : ℝ) = ((2 ^ 255 : ℕ) : ℝ) := by
          rw [show (255 : ℝ) = ((255 : ℕ) : ℝ) by norm_num, Real.rpow_natCast, Nat.cast_pow]; rfl
      _ ≤ (secpP : ℝ) := Nat.cast_le.mpr this
  unfold SatInequiv
  generalize Real.logb 2 (secpP : ℝ) = lp at hp1 ⊢
  have hf : (253 : ℤ) ≤ ⌊lp - (((5 : ℕ) : ℝ) - 1) / 2⌋ := by
    rw [Int.le_floor]; norm_num; linarith
  have hc2 : ⌈Real.logb ((5 : ℕ) : ℝ) 2 * ((min 128 256 : ℕ) : ℝ)⌉ = 56 := by
    rw [Int.ceil_eq_iff]; norm_num; constructor <;> linarith
  have hc3 : ⌈Real.logb ((5 : ℕ) : ℝ) ((3 : ℕ) : ℝ)⌉ = 1 := by
    rw [Int.ceil_eq_iff]
    norm_num
    constructor
    · exact Real.logb_pos (by norm_num) (by norm_num)
    · rw [Real.logb_le_iff_le_rpow (by norm_num) (by norm_num)]; norm_num
  have hf' : ((128 : ℕ) : ℝ) ≤ (⌊lp - (((5 : ℕ) : ℝ) - 1) / 2⌋ : ℝ) * (((3 : ℕ) : ℝ) + 1) := by
    have : (253 : ℝ) ≤ (⌊lp - (((5 : ℕ) : ℝ) - 1) / 2⌋ : ℝ) := by exact_mod_cast hf
    push_cast at this ⊢
    linarith
  dsimp only
  rw [if_pos hf', hc2, hc3]
  have hm3 : min (((128 : ℕ) : ℝ) / 3) (lp / 2) = 128 / 3 := by
    rw [min_eq_left (by push_cast; linarith)]; norm_num
  have hm4 : min (Real.logb ((5 : ℕ) : ℝ) 2 * ((128 : ℕ) : ℝ) / (((3 : ℕ) : ℝ) + 1)) (Real.logb ((5 : ℕ) : ℝ) 2 * lp / 2) ≤ 14 := by
    refine (min_le_left _ _).trans ?_
    push_cast; linarith
  rw [hm3, max_le_iff, max_le_iff, max_le_iff, Int.ceil_le, Int.ceil_le]
  generalize min (Real.logb ((5 : ℕ) : ℝ) 2 * ((128 : ℕ) : ℝ) / (((3 : ℕ) : ℝ) + 1)) (Real.logb ((5 : ℕ) : ℝ) 2 * lp / 2) = q
    at hm4 ⊢
  constructor
  · rintro ⟨⟨a, b⟩, -⟩
    omega
  · rintro ⟨a, b⟩
    have b' : (58 : ℝ) ≤ (rf : ℝ) + rp := by exact_mod_cast b
    refine ⟨⟨by omega, by omega⟩, ?_, ?_⟩
    · push_cast; linarith
    · push_cast; linarith

/-- The inequalities as a test. -/
def sat58 (rf rp : ℕ) : Bool := decide (6 ≤ rf ∧ 58 ≤ rf + rp)

theorem cost_ge {rf rp : ℕ} (h : sat58 rf rp = true) (he : rf % 2 = 0) :
    81 ≤ sboxCost 3 (rf + 2) ((rp * 1075 + 999) / 1000) ∨ (rf = 6 ∧ rp = 52) := by
  simp only [sat58, decide_eq_true_eq] at h
  unfold sboxCost
  omega

/-- Nothing better than the final choice has been found yet. -/
def Above (b : Best) : Prop := b = ⟨56, 8, some 80, 8⟩ ∨ b.cost = none ∨ ∃ c, b.cost = some c ∧ 81 ≤ c

theorem roundsStep_above {s : ℕ × Best} (h : Above s.2) (rf : ℕ) : Above (roundsStep sat58 3 s rf).2 := by
  unfold roundsStep
  split_ifs with h1 h2
  · dsimp only
    split_ifs
    · rcases cost_ge h2 h1 with hc | ⟨rfl, hc⟩
      · exact Or.inr (Or.inr ⟨_, rfl, hc⟩)
      · left
        rw [hc]
        rfl
    · exact h
  · exact h
  · exact h

theorem roundsStep_best {s : ℕ × Best} (h : s.2 = ⟨56, 8, some 80, 8⟩) (rf : ℕ) :
    (roundsStep sat58 3 s rf).2 = ⟨56, 8, some 80, 8⟩ := by
  unfold roundsStep
  split_ifs with h1 h2
  · dsimp only
    rw [h]
    dsimp only
    rcases cost_ge h2 h1 with hc | ⟨rfl, hc⟩
    · rw [if_neg]
      simp only [Bool.or_eq_true, Bool.and_eq_true, decide_eq_true_eq]
      omega
    · rw [hc]
      rfl
  · exact h
  · exact h

theorem inner_above (l : List ℕ) : ∀ {s : ℕ × Best}, Above s.2 → Above (l.foldl (roundsStep sat58 3) s).2 := by
  induction l with
  | nil => exact fun h => h
  | cons a l ih => exact fun h => ih (roundsStep_above h a)

theorem inner_best (l : List ℕ) : ∀ {s : ℕ × Best}, s.2 = ⟨56, 8, some 80, 8⟩ →
    (l.foldl (roundsStep sat58 3) s).2 = ⟨56, 8, some 80, 8⟩ := by
  induction l with
  | nil => exact fun h => h
  | cons a l ih => exact fun h => ih (roundsStep_best h a)

theorem outer_above (L l : List ℕ) : ∀ {b : Best}, Above b →
    Above (l.foldl (fun b rpT => (L.foldl (roundsStep sat58 3) (rpT, b)).2) b) := by
  induction l with
  | nil => exact fun h => h
  | cons a l ih => exact fun h => ih (inner_above _ h)

theorem outer_best (l : List ℕ) :
    l.foldl (fun b rpT => ((List.range' 4 96).foldl (roundsStep sat58 3) (rpT, b)).2) ⟨56, 8, some 80, 8⟩ =
      ⟨56, 8, some 80, 8⟩ := by
  induction l with
  | nil => rfl
  | cons a l ih =>
    rw [List.foldl_cons, inner_best _ rfl]
    exact ih

theorem inner_52 {b : Best} (h : Above b) :
    ((List.range' 4 96).foldl (roundsStep sat58 3) (52, b)).2 = ⟨56, 8, some 80, 8⟩ := by
  rw [show List.range' 4 96 = 4 :: 5 :: 6 :: List.range' 7 93 by decide +kernel]
  simp only [List.foldl_cons]
  refine inner_best _ ?_
  have e4 : roundsStep sat58 3 (52, b) 4 = (52, b) := by simp [roundsStep, sat58]
  have e5 : roundsStep sat58 3 (52, b) 5 = (52, b) := by simp [roundsStep]
  rw [e4, e5]
  have e6 : sat58 6 52 = true := by decide
  unfold roundsStep
  rw [if_pos (by decide), if_pos e6]
  dsimp only
  rcases h with rfl | h | ⟨c, hc, h81⟩
  · rfl
  · rw [h]; rfl
  · rw [hc]
    dsimp only
    rw [if_pos]
    · rfl
    · have : sboxCost 3 (6 + 2) ((52 * 1075 + 999) / 1000) = 80 := by decide +kernel
      simp only [this, Bool.or_eq_true, decide_eq_true_eq]
      left; omega

/-- The script chooses eight full and 56 partial rounds. -/
theorem findRounds_k256 : findRounds sat58 3 = (8, 56) := by
  unfold findRounds
  rw [show List.range' 1 499 = List.range' 1 51 ++ 52 :: List.range' 53 447 by decide +kernel, List.foldl_append,
    List.foldl_cons, inner_52 (outer_above _ _ (Or.inr (Or.inl rfl))), outer_best]

/-! ### What the tests on the matrix mean -/

section tests
variable {p t : ℕ} [Fact p.Prime] [NeZero t]

theorem alg2Loop_full (M : Matrix (Fin t) (Fin t) (ZMod p)) {U : Submodule (ZMod p) (Fin t → ZMod p)}
    (hU : ∀ v ∈ U, M.mulVec v ∈ U) : ∀ (fuel : ℕ) (v : Fin t → ZMod p) (IS : Submodule (ZMod p) (Fin t → ZMod p)),
    alg2Loop M ⊤ fuel v IS → v ∈ U → IS ≤ U → U = ⊤
  | 0, _, _, h, _, _ => h.elim
  | fuel + 1, v, IS, h, hv, hIS => by
    have hv' := hU v hv
    have hIS' : IS ⊔ Submodule.span (ZMod p) {M.mulVec v} ≤ U :=
      sup_le hIS ((Submodule.span_singleton_le_iff_mem _ _).mpr hv')
    simp only [alg2Loop, inf_top_eq, ne_eq, not_true_eq_false, or_false] at h
    split_ifs at h with h1 h2
    · have : IS ⊔ Submodule.span (ZMod p) {M.mulVec v} = ⊤ :=
        Submodule.eq_top_of_finrank_eq (by rw [h1, Module.finrank_fin_fun])
      exact top_le_iff.mp (this ▸ hIS')
    · exact alg2Loop_full M hU fuel _ _ h hv' hIS'

theorem iota_full : Submodule.span (ZMod p) ({Pi.single 0 1} ∪ (fun i => Pi.single i 1) '' {i : Fin t | 1 ≤ i.val}) =
    (⊤ : Submodule (ZMod p) (Fin t → ZMod p)) := by
  rw [eq_top_iff, ← (Pi.basisFun (ZMod p) (Fin t)).span_eq, Submodule.span_le]
  rintro _ ⟨i, rfl⟩
  rw [Pi.basisFun_apply]
  refine Submodule.subset_span ?_
  by_cases hi : i.val = 0
  · left
    rw [show i = 0 from Fin.ext hi]; rfl
  · right
    exact ⟨i, by simpa using Nat.one_le_iff_ne_zero.mpr hi, rfl⟩

/-- The second test: no proper subspace that contains the first unit vector (the word that goes through the S-box in a
partial round) is mapped into itself. -/
theorem alg2_spec {M : Matrix (Fin t) (Fin t) (ZMod p)} (h : Alg2 M) {U : Submodule (ZMod p) (Fin t → ZMod p)}
    (h0 : Pi.single 0 1 ∈ U) (hU : ∀ v ∈ U, M.mulVec v ∈ U) : U = ⊤ := by
  rw [Alg2, iota_full] at h
  exact alg2Loop_full M hU _ _ _ h h0 ((Submodule.span_singleton_le_iff_mem _ _).mpr h0)

/-- The first test: a vector whose first word stays 0 for `i` rounds is not sent to a multiple of itself by `i` rounds. -/
theorem alg1_spec {M : Matrix (Fin t) (Fin t) (ZMod p)} (h : Alg1 M) {i : ℕ} (hi : 1 ≤ i) (hit : i ≤ t - 1)
    {v : Fin t → ZMod p} (h0 : v 0 = 0) (hv : ∀ k, 1 ≤ k → k < i → (M ^ k).mulVec v 0 = 0) {c : ZMod p}
    (hc : (M ^ i).mulVec v = c • v) : v = 0 := by
  obtain ⟨-, h2, -⟩ := h i hi hit
  have hmem : v ∈ roundSpace M i ⊓ Module.End.eigenspace (Matrix.mulVecLin (M ^ i)) c := by
    refine ⟨fun _ => ⟨h0, fun k hk => hv (k + 1) (by omega) (by omega)⟩, ?_⟩
    exact Module.End.mem_eigenspace_iff.mpr hc
  have hle : eigenPart M i ≤ roundSpace M i := iSup_le fun _ => inf_le_left
  have hne : eigenPart M i ≠ ⊤ := by
    intro e
    rw [e, top_le_iff] at hle
    have : (Pi.single 0 1 : Fin t → ZMod p) ∈ roundSpace M i := by rw [hle]; trivial
    have := (this (by omega)).1
    rw [Pi.single_eq_same] at this
    exact one_ne_zero this
  have hbot : eigenPart M i = ⊥ := by
    by_contra hb
    exact h2 ⟨hb, hne⟩
  have : v ∈ eigenPart M i := Submodule.mem_iSup_of_mem c hmem
  rwa [hbot, Submodule.mem_bot] at this

/-- The space of the first test. -/
theorem mem_roundSpace {M : Matrix (Fin t) (Fin t) (ZMod p)} {i : ℕ} (hi : 1 ≤ i) {v : Fin t → ZMod p} :
    v ∈ roundSpace M i ↔ ∀ k < i, (M ^ k).mulVec v 0 = 0 := by
  constructor
  · intro h k hk
    obtain ⟨h0, h1⟩ := h (by omega)
    cases k with
    | zero => rwa [pow_zero, Matrix.one_mulVec]
    | succ k => exact h1 k (by omega)
  · intro h _
    refine ⟨?_, fun k hk => h (k + 1) (by omega)⟩
    have := h 0 (by omega)
    rwa [pow_zero, Matrix.one_mulVec] at this

/-- The first test: no power of the matrix below the size is a multiple of the identity, and the vectors whose first word
stays 0 for `i` rounds are not sent onto themselves by `i` or fewer rounds. -/
theorem alg1_space_spec {M : Matrix (Fin t) (Fin t) (ZMod p)} (h : Alg1 M) {i : ℕ} (hi : 1 ≤ i) (hit : i ≤ t - 1) :
    (∀ c : ZMod p, M ^ i ≠ c • 1) ∧ ∀ j, 1 ≤ j → j ≤ i →
      (M ^ j).mulVec '' {v | ∀ k < i, (M ^ k).mulVec v 0 = 0} ≠ {v | ∀ k < i, (M ^ k).mulVec v 0 = 0} := by
  obtain ⟨h1, -, h3⟩ := h i hi hit
  refine ⟨fun c e => h1 ?_, fun j hj hji e => h3 j hj hji ?_⟩
  · rw [e, Matrix.smul_apply, Matrix.one_apply_eq, smul_eq_mul, mul_one]
  · have hS : {v | ∀ k < i, (M ^ k).mulVec v 0 = 0} = (roundSpace M i : Set (Fin t → ZMod p)) :=
      Set.ext fun v => (mem_roundSpace hi).symm
    rw [hS] at e
    exact SetLike.coe_injective (by rw [Submodule.map_coe]; exact e.symm)

end tests

/-! ### The matrix in use passes the tests -/

section three
variable {p : ℕ} [Fact p.Prime]

theorem firstWord {M : Matrix (Fin 3) (Fin 3) (ZMod p)} (h01 : M 0 1 ≠ 0) {v : Fin 3 → ZMod p} (h0 : v 0 = 0)
    (h1 : M.mulVec v 0 = 0) : v = (v 2 / M 0 1) • ![0, -M 0 2, M 0 1] := by
  have h1' : M 0 1 * v 1 + M 0 2 * v 2 = 0 := by
    have := h1
    rw [Matrix.mulVec, dotProduct, Fin.sum_univ_three, h0] at this
    linear_combination this
  funext j
  fin_cases j
  · simpa using h0
  · show v 1 = v 2 / M 0 1 * (-M 0 2)
    field_simp
    linear_combination h1'
  · show v 2 = v 2 / M 0 1 * M 0 1
    field_simp

theorem alg1_three {M : Matrix (Fin 3) (Fin 3) (ZMod p)} (h01 : M 0 1 ≠ 0)
    (hw : (M ^ 2).mulVec ![0, -M 0 2, M 0 1] 0 ≠ 0) : Alg1 M := by
  have hfirst := fun (v : Fin 3 → ZMod p) => firstWord (v := v) h01
  have hthird : ∀ v : Fin 3 → ZMod p, v 0 = 0 → M.mulVec v 0 = 0 → (M ^ 2).mulVec v 0 = 0 → v = 0 := by
    intro v h0 h1 h2
    have e := hfirst v h0 h1
    rw [e, Matrix.mulVec_smul, Pi.smul_apply, smul_eq_mul] at h2
    have := (mul_eq_zero.mp h2).resolve_right hw
    rw [this, zero_smul] at e
    exact e
  have hw0 : M.mulVec ![0, -M 0 2, M 0 1] 0 = 0 := by
    rw [Matrix.mulVec, dotProduct, Fin.sum_univ_three]
    show M 0 0 * 0 + M 0 1 * (-M 0 2) + M 0 2 * M 0 1 = 0
    ring
  have hsq : ∀ v, (M ^ 2).mulVec v = M.mulVec (M.mulVec v) := fun v => by rw [pow_two, Matrix.mulVec_mulVec]
  have hnot : ∀ i, 1 ≤ i → i ≤ 2 → eigenPart M i = ⊥ := by
    intro i hi hi2
    rw [eigenPart, eq_bot_iff]
    refine iSup_le fun μ v hv => ?_
    obtain ⟨hS, he⟩ := hv
    have he' : (M ^ i).mulVec v = μ • v := Module.End.mem_eigenspace_iff.mp he
    obtain ⟨h0, h1⟩ := hS (by omega)
    rw [Submodule.mem_bot]
    have hi' : i = 1 ∨ i = 2 := by omega
    rcases hi' with rfl | rfl
    · rw [pow_one] at he'
      have e1 : M.mulVec v 0 = 0 := by rw [he', Pi.smul_apply, h0, smul_zero]
      refine hthird v h0 e1 ?_
      rw [hsq, he', Matrix.mulVec_smul, Pi.smul_apply, e1, smul_zero]
    · have e1 := h1 0 (by omega)
      rw [zero_add, pow_one] at e1
      exact hthird v h0 e1 (by rw [he', Pi.smul_apply, h0, smul_zero])
  intro i hi hi2
  refine ⟨?_, fun h => h.1 (hnot i hi hi2), ?_⟩
  · intro e
    have hi' : i = 1 ∨ i = 2 := by omega
    rcases hi' with rfl | rfl
    · rw [pow_one] at e
      refine h01 ?_
      rw [e, Matrix.smul_apply, Matrix.one_apply_ne (by decide), smul_zero]
    · refine hw ?_
      rw [e, Matrix.smul_mulVec, Matrix.one_mulVec]
      simp
  · intro j hj hji e
    have hi' : i = 1 ∨ i = 2 := by omega
    rcases hi' with rfl | rfl
    · obtain rfl : j = 1 := by omega
      have hm : (Pi.single 1 1 : Fin 3 → ZMod p) ∈ roundSpace M 1 :=
        fun _ => ⟨by simp, fun i hi => absurd hi (by omega)⟩
      have : Matrix.mulVecLin (M ^ 1) (Pi.single 1 1) ∈ roundSpace M 1 := by
        rw [e]; exact Submodule.mem_map_of_mem hm
      have := (this (by omega)).1
      rw [pow_one, Matrix.mulVecLin_apply, Matrix.mulVec_single_one] at this
      exact h01 this
    · have hm : ![0, -M 0 2, M 0 1] ∈ roundSpace M 2 := by
        refine fun _ => ⟨rfl, fun i hi => ?_⟩
        obtain rfl : i = 0 := by omega
        rw [zero_add, pow_one]; exact hw0
      have hin : Matrix.mulVecLin (M ^ j) ![0, -M 0 2, M 0 1] ∈ roundSpace M 2 := by
        rw [e]; exact Submodule.mem_map_of_mem hm
      obtain ⟨a, b⟩ := hin (by omega)
      have b := b 0 (by omega)
      rw [Matrix.mulVecLin_apply] at a b
      have hj' : j = 1 ∨ j = 2 := by omega
      rcases hj' with rfl | rfl
      · rw [zero_add, pow_one, ← hsq] at b
        exact hw b
      · exact hw a

theorem alg2Loop_step {t : ℕ} {M : Matrix (Fin t) (Fin t) (ZMod p)} {fuel : ℕ} {v : Fin t → ZMod p}
    {IS : Submodule (ZMod p) (Fin t → ZMod p)} (hlt : IS < IS ⊔ Submodule.span (ZMod p) {M.mulVec v})
    (h : alg2Loop M ⊤ fuel (M.mulVec v) (IS ⊔ Submodule.span (ZMod p) {M.mulVec v})) : alg2Loop M ⊤ (fuel + 1) v IS := by
  simp only [alg2Loop, inf_top_eq, ne_eq, not_true_eq_false, or_false]
  split_ifs with h1 h2
  · exact absurd h2 (not_le.mpr (Submodule.finrank_lt_finrank_of_lt hlt))
  · exact h

theorem alg2Loop_done {t : ℕ} {M : Matrix (Fin t) (Fin t) (ZMod p)} {fuel : ℕ} {v : Fin t → ZMod p}
    {IS : Submodule (ZMod p) (Fin t → ZMod p)} (h : IS ⊔ Submodule.span (ZMod p) {M.mulVec v} = ⊤) :
    alg2Loop M ⊤ (fuel + 1) v IS := by
  simp only [alg2Loop, inf_top_eq, ne_eq, not_true_eq_false, or_false]
  rw [if_pos]
  · trivial
  · rw [h, finrank_top, Module.finrank_fin_fun]

theorem alg2_three {M : Matrix (Fin 3) (Fin 3) (ZMod p)} {v w : Fin 3 → ZMod p}
    (hv : M.mulVec (Pi.single 0 1) = v) (hw : M.mulVec v = w) (hd : v 1 * w 2 - v 2 * w 1 ≠ 0) : Alg2 M := by
  have hind : LinearIndependent (ZMod p) ![(Pi.single 0 1 : Fin 3 → ZMod p), v, w] := by
    rw [Fintype.linearIndependent_iff]
    intro g hg
    rw [Fin.sum_univ_three] at hg
    have h0 := congrFun hg 0
    have h1 := congrFun hg 1
    have h2 := congrFun hg 2
    simp [Matrix.cons_val_zero] at h0 h1 h2
    have e1 : g 1 = 0 := by
      refine (mul_eq_zero.mp (?_ : g 1 * (v 1 * w 2 - v 2 * w 1) = 0)).resolve_right hd
      linear_combination w 2 * h1 - w 1 * h2
    have e2 : g 2 = 0 := by
      refine (mul_eq_zero.mp (?_ : g 2 * (v 1 * w 2 - v 2 * w 1) = 0)).resolve_right hd
      linear_combination v 1 * h2 - v 2 * h1
    intro i
    fin_cases i
    · simpa [e1, e2] using h0
    · exact e1
    · exact e2
  have htop : Submodule.span (ZMod p) {(Pi.single 0 1 : Fin 3 → ZMod p)} ⊔ Submodule.span (ZMod p) {v} ⊔
      Submodule.span (ZMod p) {w} = ⊤ := by
    have := hind.span_eq_top_of_card_eq_finrank (by simp)
    rw [← this, ← Submodule.span_union, ← Submodule.span_union]
    congr 1
    ext x
    simp [Matrix.range_cons]
  have hlt : Submodule.span (ZMod p) {(Pi.single 0 1 : Fin 3 → ZMod p)} <
      Submodule.span (ZMod p) {(Pi.single 0 1 : Fin 3 → ZMod p)} ⊔ Submodule.span (ZMod p) {v} := by
    refine lt_of_le_of_ne le_sup_left fun e => ?_
    have hm : v ∈ Submodule.span (ZMod p) {(Pi.single 0 1 : Fin 3 → ZMod p)} := by
      rw [e]
      exact Submodule.mem_sup_right (Submodule.mem_span_singleton_self v)
    obtain ⟨c, hc⟩ := Submodule.mem_span_singleton.mp hm
    refine hd ?_
    rw [← hc]
    simp
  rw [Alg2, iota_full]
  refine alg2Loop_step (hv.symm ▸ hlt) ?_
  rw [hv]
  exact alg2Loop_done (hw.symm ▸ htop)

end three

/-- The matrix of `k256_consts.rs`. -/
def k256Matrix : Matrix (Fin 3) (Fin 3) (ZMod secpP) := Matrix.of (k256Params (ZMod secpP)).mds

/-- One product with that matrix, on numbers below the modulus. -/
def mdsStep (v : ℕ × ℕ × ℕ) : ℕ × ℕ × ℕ :=
  let f (i : Fin 3) := (k256MdsNat i 0 * v.1 + k256MdsNat i 1 * v.2.1 + k256MdsNat i 2 * v.2.2) % secpP
  (f 0, f 1, f 2)

def castV (v : ℕ × ℕ × ℕ) : Fin 3 → ZMod secpP := ![(v.1 : ZMod secpP), (v.2.1 : ZMod secpP), (v.2.2 : ZMod secpP)]

theorem mdsStep_cast (v : ℕ × ℕ × ℕ) : k256Matrix.mulVec (castV v) = castV (mdsStep v) := by
  have h : ∀ i : Fin 3, (((k256MdsNat i 0 * v.1 + k256MdsNat i 1 * v.2.1 + k256MdsNat i 2 * v.2.2) % secpP : ℕ) :
      ZMod secpP) = k256Matrix i 0 * v.1 + k256Matrix i 1 * v.2.1 + k256Matrix i 2 * v.2.2 := by
    intro i
    rw [ZMod.natCast_mod, Nat.cast_add, Nat.cast_add, Nat.cast_mul, Nat.cast_mul, Nat.cast_mul]
    rfl
  funext i
  rw [Matrix.mulVec, dotProduct, Fin.sum_univ_three]
  fin_cases i
  · exact (h 0).symm
  · exact (h 1).symm
  · exact (h 2).symm

theorem mdsIter_cast (k : ℕ) (v : ℕ × ℕ × ℕ) : (k256Matrix ^ k).mulVec (castV v) = castV (mdsStep^[k] v) := by
  induction k generalizing v with
  | zero => rw [pow_zero, Matrix.one_mulVec]; rfl
  | succ k ih => rw [pow_succ, ← Matrix.mulVec_mulVec, mdsStep_cast, ih]; rfl

theorem castV_unit : castV (1, 0, 0) = Pi.single 0 1 := by
  funext i
  fin_cases i <;> simp [castV]

/-- The determinants the tests come down to. -/
def krylovDet (r : ℕ) : Bool :=
  let v := mdsStep^[r] (1, 0, 0)
  let w := mdsStep^[r] v
  decide ((v.2.1 * w.2.2) % secpP ≠ (v.2.2 * w.2.1) % secpP)

theorem krylovDet_all : ∀ r ∈ List.range' 1 12, krylovDet r = true := by decide +kernel

theorem k256_alg2 {r : ℕ} (h1 : 1 ≤ r) (h2 : r ≤ 12) : Alg2 (k256Matrix ^ r) := by
  have hk := krylovDet_all r (by rw [List.mem_range'_1]; omega)
  simp only [krylovDet, decide_eq_true_eq] at hk
  refine alg2_three (v := castV (mdsStep^[r] (1, 0, 0))) (w := castV (mdsStep^[r] (mdsStep^[r] (1, 0, 0))))
    (by rw [← castV_unit]; exact mdsIter_cast r _) (mdsIter_cast r _) ?_
  intro e
  refine hk ?_
  generalize mdsStep^[r] (mdsStep^[r] (1, 0, 0)) = w at e ⊢
  generalize mdsStep^[r] (1, 0, 0) = v at e ⊢
  have e' : ((v.2.1 * w.2.2 : ℕ) : ZMod secpP) = ((v.2.2 * w.2.1 : ℕ) : ZMod secpP) := by
    rw [Nat.cast_mul, Nat.cast_mul]
    exact sub_eq_zero.mp e
  exact (ZMod.natCast_eq_natCast_iff' _ _ _).mp e'

/-- The vector whose first word stays 0 for one round, and its first word after two rounds. -/
theorem k256_third : (k256Matrix ^ 2).mulVec ![0, -k256Matrix 0 2, k256Matrix 0 1] 0 ≠ 0 := by
  have e : ![0, -k256Matrix 0 2, k256Matrix 0 1] = castV (0, secpP - k256MdsNat 0 2, k256MdsNat 0 1) := by
    funext i
    fin_cases i
    · exact Nat.cast_zero.symm
    · show -k256Matrix 0 2 = ((secpP - k256MdsNat 0 2 : ℕ) : ZMod secpP)
      rw [Nat.cast_sub (by decide +kernel), ZMod.natCast_self, zero_sub]
      rfl
    · rfl
  rw [e, mdsIter_cast]
  intro h
  have h' : (((mdsStep^[2] (0, secpP - k256MdsNat 0 2, k256MdsNat 0 1)).1 : ℕ) : ZMod secpP) = ((0 : ℕ) : ZMod secpP) := by
    rw [Nat.cast_zero]; exact h
  have hne : (mdsStep^[2] (0, secpP - k256MdsNat 0 2, k256MdsNat 0 1)).1 % secpP ≠ 0 % secpP := by decide +kernel
  exact hne ((ZMod.natCast_eq_natCast_iff' _ _ _).mp h')

theorem k256_tests : Alg1 k256Matrix ∧ Alg2 k256Matrix ∧ Alg3 k256Matrix := by
  have h01 : k256Matrix 0 1 ≠ 0 := by
    have h : k256MdsNat 0 1 % secpP ≠ 0 % secpP := by decide +kernel
    intro e
    refine h ((ZMod.natCast_eq_natCast_iff' _ _ _).mp ?_)
    rw [Nat.cast_zero]
    exact e
  refine ⟨alg1_three h01 k256_third, ?_, fun r h1 h2 => k256_alg2 (by omega) (by omega)⟩
  have := k256_alg2 (r := 1) le_rfl (by omega)
  rwa [pow_one] at this

theorem sat58_k256 : (fun rf rp => @decide (SatInequiv secpP 256 3 5 128 rf rp) (Classical.propDecidable _)) = sat58 := by
  funext rf rp
  rw [Bool.eq_iff_iff]
  simp only [sat58, decide_eq_true_eq]
  exact satInequiv_k256 rf rp

/-- C105.  The whole script, run with the arguments of `k256_params.sh`, gives eight full and 56 partial rounds, the round
constants and the matrix of `k256_consts.rs`; this needs at most 2000 turns of any one loop. -/
theorem whole_script_k256 {fuel : ℕ} (hf : 2000 ≤ fuel) :
    wholeScript secpP fuel 1 0 256 3 5 128 =
      some ((k256NumFullRounds, k256NumPartialRounds), k256RoundConstants, (k256Params (ZMod secpP)).mds) := by
  have hs := script_constants hf
  unfold wholeScript
  rw [sat58_k256, findRounds_k256]
  unfold script at hs
  simp only [Option.bind_eq_bind, Option.bind_eq_some_iff] at hs
  obtain ⟨⟨rc, s1⟩, e1, ⟨m, s2⟩, e2, e3⟩ := hs
  obtain ⟨rfl, rfl⟩ : rc = k256RoundConstants ∧ m = (k256Params (ZMod secpP)).mds := by
    cases e3; exact ⟨rfl, rfl⟩
  simp only [Option.bind_eq_bind]
  rw [e1, Option.bind_some]
  obtain ⟨k, rfl⟩ : ∃ k, fuel = k + 1 := ⟨fuel - 1, by omega⟩
  have e4 : generateMatrix secpP (k + 1) 256 3 (k + 1) s1 = some ((k256Params (ZMod secpP)).mds, s2) := by
    rw [generateMatrix]
    simp only [Option.bind_eq_bind]
    rw [e2, Option.bind_some]
    exact if_pos k256_tests
  rw [e4]
  rfl

/-- Whatever the modulus, the size and the state of the generator, a matrix that the script chooses has these properties:
every square part is invertible; a vector whose first word stays 0 for `i` rounds (`i < t`) is not sent to a multiple of
itself by them; no proper subspace that contains the first unit vector is mapped into itself by up to `4 t` rounds. -/
theorem generateMatrix_secure {p : ℕ} [Fact p.Prime] {n t : ℕ} [NeZero t] (fuel : ℕ) :
    ∀ (k : ℕ) {s s' : List Bool} {m : Fin t → Fin t → ZMod p}, generateMatrix p fuel n t k s = some (m, s') →
      (∀ {d : ℕ} (rows cols : Fin d ↪ Fin t) {v : Fin d → ZMod p},
        (∀ i, ∑ j, m (rows i) (cols j) * v j = 0) → v = 0) ∧
      (∀ (i : ℕ) (v : Fin t → ZMod p) (c : ZMod p), 1 ≤ i → i < t →
        (∀ k < i, (Matrix.of m ^ k).mulVec v 0 = 0) → (Matrix.of m ^ i).mulVec v = c • v → v = 0) ∧
      (∀ i, 1 ≤ i → i < t → (∀ c : ZMod p, Matrix.of m ^ i ≠ c • 1) ∧ ∀ j, 1 ≤ j → j ≤ i →
        (Matrix.of m ^ j).mulVec '' {v | ∀ k < i, (Matrix.of m ^ k).mulVec v 0 = 0} ≠
          {v | ∀ k < i, (Matrix.of m ^ k).mulVec v 0 = 0}) ∧
      (∀ (r : ℕ) (U : Submodule (ZMod p) (Fin t → ZMod p)), 1 ≤ r → r ≤ 4 * t → Pi.single 0 1 ∈ U →
        (∀ v ∈ U, (Matrix.of m ^ r).mulVec v ∈ U) → U = ⊤)
  | 0, _, _, _, h => by simp [generateMatrix] at h
  | k + 1, s, s', m, h => by
    simp only [generateMatrix, Option.bind_eq_bind, Option.bind_eq_some_iff] at h
    obtain ⟨⟨m1, s1⟩, hm, h⟩ := h
    simp only at h
    split_ifs at h with hc
    · obtain ⟨h1, h2, h3⟩ := hc
      cases h
      refine ⟨fun rows cols v => createMds_mds fuel _ hm rows cols, ?_, fun i hi hit => alg1_space_spec h1 hi (by omega), ?_⟩
      · intro i v c hi hit hz hv
        refine alg1_spec h1 hi (by omega) ?_ (fun k _ hk => hz k hk) hv
        have := hz 0 (by omega)
        rwa [pow_zero, Matrix.one_mulVec] at this
      · intro r U hr hr4 h0 hU
        have hr' : r = 1 ∨ 2 ≤ r := by omega
        rcases hr' with rfl | hr'
        · rw [pow_one] at hU
          exact alg2_spec h2 h0 hU
        · exact alg2_spec (h3 r hr' hr4) h0 hU
    · exact generateMatrix_secure fuel k h

/-- `generateMatrix_secure` speaks about the matrix in use: the script chooses it. -/
theorem k256_matrix_chosen {fuel : ℕ} (hf : 2000 ≤ fuel) :
    ∃ s s', generateMatrix secpP fuel 256 3 fuel s = some ((k256Params (ZMod secpP)).mds, s') := by
  have h := whole_script_k256 hf
  unfold wholeScript at h
  rw [sat58_k256, findRounds_k256] at h
  simp only [Option.bind_eq_bind, Option.bind_eq_some_iff] at h
  obtain ⟨⟨rc, s1⟩, -, ⟨m, s2⟩, e2, e3⟩ := h
  refine ⟨s1, s2, ?_⟩
  cases e3
  exact e2

/-- The tests do reject: the identity matrix fails the first and the second. -/
example : ¬ Alg1 (1 : Matrix (Fin 3) (Fin 3) (ZMod secpP)) ∧ ¬ Alg2 (1 : Matrix (Fin 3) (Fin 3) (ZMod secpP)) := by
  constructor
  · intro h
    have := alg1_spec h (i := 1) le_rfl (by decide) (v := Pi.single 1 1) (c := 1) (by simp)
      (fun k h1 h2 => absurd h2 (by omega)) (by rw [pow_one, Matrix.one_mulVec, one_smul])
    exact one_ne_zero (α := ZMod secpP) (by simpa using congrFun this 1)
  · intro h
    have := alg2_spec h (U := Submodule.span _ {Pi.single 0 1}) (Submodule.mem_span_singleton_self _)
      (fun v hv => by rwa [Matrix.one_mulVec])
    have h1 : (Pi.single 1 1 : Fin 3 → ZMod secpP) ∈ Submodule.span (ZMod secpP) {Pi.single 0 1} := by rw [this]; trivial
    obtain ⟨c, hc⟩ := Submodule.mem_span_singleton.mp h1
    have := congrFun hc 1
    exact one_ne_zero (α := ZMod secpP) (by simpa using this.symm)

end Spartan
