import Verif.Lemmas.CircuitReg
import Verif.Props.Group

/-!
The elliptic-curve circuits (C50–C54, C57).

Points are Mathlib's points of secp256k1, given to the circuits by their coordinates `xy` with
`(0, 0)` for the point at infinity.  A statement `Circuit inputs out ↔ out = value` says both that
the value is an output of some satisfying assignment and that no satisfying assignment has another
output.
-/

namespace Spartan.Circuit

open Spec WeierstrassCurve.Affine

/-! ### C50: incomplete addition and doubling -/

/-- The incomplete addition circuit has exactly one output for points with different abscissas:
their sum. -/
theorem add_incomplete_correct (P Q : Secp) (hP : P ≠ 0) (hQ : Q ≠ 0) (hx : (xy P).1 ≠ (xy Q).1)
    (out : Fp × Fp) :
    AddIncomplete (xy P).1 (xy P).2 (xy Q).1 (xy Q).2 out.1 out.2 ↔ out = xy (P + Q) :=
  addIncomplete_curve hP hQ hx

/-- The doubling circuit has exactly one output for every affine point: its double. -/
theorem double_correct (P : Secp) (hP : P ≠ 0) (out : Fp × Fp) :
    Double (xy P).1 (xy P).2 out.1 out.2 ↔ out = xy (P + P) :=
  double_curve hP

/-- The restriction to different abscissas is needed: on equal points the incomplete addition
accepts outputs other than the double, on opposite points it accepts nothing. -/
theorem add_incomplete_exceptional (P : Secp) (hP : P ≠ 0) :
    (∃ out : Fp × Fp, out ≠ xy (P + P) ∧
      AddIncomplete (xy P).1 (xy P).2 (xy P).1 (xy P).2 out.1 out.2) ∧
    ∀ out : Fp × Fp,
      ¬ AddIncomplete (xy P).1 (xy P).2 (xy (-P)).1 (xy (-P)).2 out.1 out.2 := by
  constructor
  · by_cases h : (xy (P + P)).1 = 0 ^ 2 - (xy P).1 - (xy P).1
    · refine ⟨(1 ^ 2 - (xy P).1 - (xy P).1, _), ?_,
        addIncomplete_iff.mpr ⟨1, by rw [sub_self, sub_self, zero_mul], rfl, rfl⟩⟩
      intro hc
      have := congrArg Prod.fst hc
      rw [h] at this
      have h10 : (1 : Fp) = 0 := by linear_combination this
      exact one_ne_zero h10
    · refine ⟨(0 ^ 2 - (xy P).1 - (xy P).1, _), ?_,
        addIncomplete_iff.mpr ⟨0, by rw [sub_self, sub_self, zero_mul], rfl, rfl⟩⟩
      intro hc
      exact h (congrArg Prod.fst hc).symm
  · intro out hc
    rw [addIncomplete_iff, xy_neg] at hc
    obtain ⟨l, h, _⟩ := hc
    obtain ⟨x, y, hn, rfl⟩ := Koblitz.exists_coords P hP
    simp only [xy_some] at h
    apply two_y_ne hn
    linear_combination -h

example : AddIncomplete (xy G).1 (xy G).2 (xy (G + G)).1 (xy (G + G)).2 (xy (G + (G + G))).1
    (xy (G + (G + G))).2 := by
  have h2 : ¬ (secpN : ℤ) ∣ 2 := by decide +kernel
  have hGG : G + G ≠ 0 := by
    rw [← two_zsmul]
    exact fun h => h2 ((zsmul_eq_zero_iff G_ne _).mp h)
  refine (add_incomplete_correct G (G + G) G_ne hGG ?_ (xy (G + (G + G)))).mpr rfl
  have := x_zsmul_ne G_ne (a := 1) (b := 2) (by decide +kernel) (by decide +kernel)
  rwa [one_zsmul, two_zsmul] at this

/-! ### C51: complete addition -/

/-- The complete addition circuit has exactly one output, the sum, for all pairs of points, including
infinity and opposite points, except equal affine points and pairs with different abscissas
whose ordinates sum to one. -/
theorem add_complete_partial (P Q : Secp) (hz : ¬ ((xy P).1 ≠ (xy Q).1 ∧ (xy P).2 + (xy Q).2 = 1))
    (hd : P = Q → P = 0) (out : Fp × Fp) :
    AddComplete (xy P).1 (xy P).2 (xy Q).1 (xy Q).2 out.1 out.2 ↔ out = xy (P + Q) :=
  addComplete_curve hz hd

/-- Doubling an affine point: the double is an output, but so is the end point of every line through
the point, whatever its slope. -/
theorem add_complete_double (P : Secp) (hP : P ≠ 0) (out : Fp × Fp) :
    (AddComplete (xy P).1 (xy P).2 (xy P).1 (xy P).2 out.1 out.2 ↔
      ∃ l, out.1 = l ^ 2 - 2 * (xy P).1 ∧ out.2 = l * ((xy P).1 - out.1) - (xy P).2) ∧
    AddComplete (xy P).1 (xy P).2 (xy P).1 (xy P).2 (xy (P + P)).1 (xy (P + P)).2 := by
  refine ⟨addComplete_double hP, (addComplete_double hP).mpr ?_⟩
  obtain ⟨l, x2, rfl, -, h2, h3⟩ := (double_curve hP (oX := (xy (P + P)).1)).mpr rfl
  exact ⟨l, by rw [h2]; ring, h3⟩

/-- The doubling case is not constrained: for every affine point there is a satisfying assignment
whose output is not the double. -/
theorem add_complete_double_unsound (P : Secp) (hP : P ≠ 0) :
    ∃ out : Fp × Fp, out ≠ xy (P + P) ∧
      AddComplete (xy P).1 (xy P).2 (xy P).1 (xy P).2 out.1 out.2 := by
  by_cases h : (xy (P + P)).1 = 0 ^ 2 - 2 * (xy P).1
  · refine ⟨(1 ^ 2 - 2 * (xy P).1, _), ?_, (addComplete_double hP).mpr ⟨1, rfl, rfl⟩⟩
    intro hc
    have := congrArg Prod.fst hc
    rw [h] at this
    have h10 : (1 : Fp) = 0 := by linear_combination this
    exact one_ne_zero h10
  · refine ⟨(0 ^ 2 - 2 * (xy P).1, _), ?_, (addComplete_double hP).mpr ⟨0, rfl, rfl⟩⟩
    intro hc
    exact h (congrArg Prod.fst hc).symm

/-- On points with different abscissas whose ordinates sum to one the only output is `(0, 0)`,
which is not the sum. -/
theorem add_complete_false_zero (P Q : Secp) (hx : (xy P).1 ≠ (xy Q).1)
    (hy : (xy P).2 + (xy Q).2 = 1) (out : Fp × Fp) :
    (AddComplete (xy P).1 (xy P).2 (xy Q).1 (xy Q).2 out.1 out.2 ↔ out = (0, 0)) ∧
      xy (P + Q) ≠ (0, 0) := by
  refine ⟨addComplete_falseZero ⟨hx, hy⟩, ?_⟩
  intro h
  have : P + Q = 0 := xy_injective (h.trans xy_zero.symm)
  rw [add_eq_zero_iff_eq_neg] at this
  exact hx (by rw [this, xy_neg])

/-- The points `(x, 47)` and `(x', -46)` are such a pair. -/
theorem false_zero_exists : ∃ P Q : Secp, (xy P).1 ≠ (xy Q).1 ∧ (xy P).2 + (xy Q).2 = 1 := by
  have h1 : (koblitz Fp).Nonsingular
      ((104969306539965867728540732364466665548413011011341994967214121057096017874341 : ℕ) : Fp)
      ((47 : ℕ) : Fp) := by
    rw [Koblitz.secp_nonsingular]
    have : ((47 ^ 2 : ℕ) : Fp) = ((104969306539965867728540732364466665548413011011341994967214121057096017874341 ^ 3 + 7 : ℕ) : Fp) :=
      MParams.cast_eq_of_mod (by decide +kernel)
    exact_mod_cast this
  have h2 : (koblitz Fp).Nonsingular
      ((87251913007682247545475989722987252514220247182000285783095923003247359097575 : ℕ) : Fp)
      ((secpP - 46 : ℕ) : Fp) := by
    rw [Koblitz.secp_nonsingular]
    have : (((secpP - 46) ^ 2 : ℕ) : Fp) = ((87251913007682247545475989722987252514220247182000285783095923003247359097575 ^ 3 + 7 : ℕ) : Fp) :=
      MParams.cast_eq_of_mod (by decide +kernel)
    exact_mod_cast this
  refine ⟨.some _ _ h1, .some _ _ h2, ?_, ?_⟩
  · simp only [xy_some]
    rw [Ne, cast_inj (by decide +kernel) (by decide +kernel)]
    decide +kernel
  · simp only [xy_some]
    rw [← Nat.cast_add, ← Nat.cast_one]
    exact MParams.cast_eq_of_mod (by decide +kernel)

/-- The complete addition circuit is neither complete nor sound for addition: there are points whose
sum is not an accepted output, and points for which a wrong output is accepted. -/
theorem add_complete_fails :
    (∃ P Q : Secp, ¬ AddComplete (xy P).1 (xy P).2 (xy Q).1 (xy Q).2 (xy (P + Q)).1 (xy (P + Q)).2) ∧
    ∃ (P Q : Secp) (out : Fp × Fp), out ≠ xy (P + Q) ∧
      AddComplete (xy P).1 (xy P).2 (xy Q).1 (xy Q).2 out.1 out.2 := by
  obtain ⟨P, Q, hx, hy⟩ := false_zero_exists
  obtain ⟨h1, h2⟩ := add_complete_false_zero P Q hx hy (xy (P + Q))
  obtain ⟨out, h3, h4⟩ := add_complete_double_unsound G G_ne
  exact ⟨⟨P, Q, fun h => h2 (h1.mp h)⟩, G, G, out, h3, h4⟩

/-! ### C52: scalar recoding -/

/-- The constraints of `K` do not depend on the scalar: its outputs are all 256-bit strings. -/
theorem k_outputs (s : Fp) (out : ℕ → Fp) :
    K s out ↔ ∀ i < 256, out i = 0 ∨ out i = 1 := by
  constructor
  · intro h i hi
    obtain ⟨k, hk, hb⟩ := bits_of_k h
    rw [hb i hi]
    split
    · exact .inr rfl
    · exact .inl rfl
  · intro h
    obtain ⟨k, hk, hb⟩ := exists_areBits h
    exact k_of_bits hk hb s

/-- What an honest prover's `K` computes: the bits of the `k < q` with `k ≡ s - 2^256` modulo `q`,
except for `s` in a window just below `2^128`. -/
theorem k_honest_partial (s : Fp) (hs : ¬ (2 ^ 128 ≤ s.val + tQlo ∧ s.val < 2 ^ 128)) :
    ∃ k : ℕ, k < secpN ∧ (k : ZMod secpN) = (s.val : ZMod secpN) - 2 ^ 256 ∧
      ∀ out, KHonest s out ↔ AreBits 256 k out := by
  obtain ⟨c0, c1, _⟩ := k_consts
  refine ⟨(s.val + tQ) % q, by rw [c0]; exact Nat.mod_lt _ secpN_prime.pos, ?_, fun out => ?_⟩
  · rw [c0, ZMod.natCast_mod, Nat.cast_add, c1, Nat.cast_sub (by decide +kernel), Nat.cast_mul,
      ZMod.natCast_self, Nat.cast_pow]
    push_cast
    ring
  · rw [kHonest_iff, if_neg hs]

/-- In the window the honest prover's `K` computes the recoding of `s - 2^128` instead. -/
theorem k_honest_window (s : Fp) (hs : 2 ^ 128 ≤ s.val + tQlo ∧ s.val < 2 ^ 128) :
    ∃ k : ℕ, k < 2 ^ 256 ∧ (k : ZMod secpN) = (s.val : ZMod secpN) - 2 ^ 256 - 2 ^ 128 ∧
      ∀ out, KHonest s out ↔ AreBits 256 k out := by
  obtain ⟨c0, c1, c2, c3, c4, c5, c6, c7, c8, c9, c10⟩ := k_consts
  have key : ∀ a t : ℕ, a < 2 ^ 128 → t < 2 ^ 256 → a + t - 2 ^ 128 < 2 ^ 256 := by
    intro a t h1 h2
    refine lt_of_le_of_lt ?_ h2
    rw [Nat.sub_le_iff_le_add, Nat.add_comm]
    exact Nat.add_le_add_left h1.le t
  refine ⟨s.val + tQ - 2 ^ 128, key _ _ hs.2 (by decide +kernel), ?_, fun out => ?_⟩
  · rw [Nat.cast_sub (by omega), Nat.cast_add, c1, Nat.cast_sub (by decide +kernel), Nat.cast_mul,
      ZMod.natCast_self, Nat.cast_pow, Nat.cast_pow]
    push_cast
    ring
  · rw [kHonest_iff, if_pos hs]

/-- The window is not empty, and its recoding is wrong. -/
theorem k_honest_wrong : ∃ s : Fp, ∀ out, KHonest s out → ∀ k < 2 ^ 256, AreBits 256 k out →
    (k : ZMod secpN) ≠ (s.val : ZMod secpN) - 2 ^ 256 := by
  have hval : ((2 ^ 128 - 1 : ℕ) : Fp).val = 2 ^ 128 - 1 :=
    ZMod.val_natCast_of_lt (by decide +kernel)
  have hw : 2 ^ 128 ≤ ((2 ^ 128 - 1 : ℕ) : Fp).val + tQlo ∧ ((2 ^ 128 - 1 : ℕ) : Fp).val < 2 ^ 128 := by
    rw [hval]; decide +kernel
  obtain ⟨k', hk', e, hh⟩ := k_honest_window _ hw
  refine ⟨((2 ^ 128 - 1 : ℕ) : Fp), fun out ho k hk hb hc => ?_⟩
  have := areBits_unique hk hk' hb ((hh out).mp ho)
  subst this
  rw [hc] at e
  have h0 : ((2 ^ 128 : ℕ) : ZMod secpN) = 0 := by
    rw [Nat.cast_pow]; push_cast; linear_combination e
  rw [ZMod.natCast_eq_zero_iff] at h0
  revert h0
  decide +kernel

/-! ### C53: scalar multiplication -/

theorem acc_last {P : Secp} (k : ℕ) :
    acc k 255 • P + (if k.testBit 0 then 0 else -P) = (2 ^ 256 + k) • P := by
  have h : acc k 255 + (if k.testBit 0 then 0 else -1) = ((2 ^ 256 + k : ℕ) : ℤ) := by
    rw [acc, Nat.testBit_zero, show 256 - 255 = 1 from rfl, pow_one]
    have hm := Nat.mod_two_eq_zero_or_one k
    have hd := Nat.mod_add_div k 2
    rcases hm with h | h <;> rw [h] at hd ⊢
    · simp; omega
    · simp; omega
  rw [← natCast_zsmul, ← h, add_zsmul]
  congr 1
  split
  · rw [zero_zsmul]
  · rw [neg_one_zsmul]

/-- The last addition doubles exactly for `k = tQ - 2`, that is for the scalar `-2`. -/
theorem last_double {P : Secp} (hP : P ≠ 0) {k : ℕ} (hk : k < 2 ^ 256) (hne : k + 2 ≠ tQ) :
    acc k 255 • P = (if k.testBit 0 then 0 else -P) → acc k 255 • P = 0 := by
  intro h
  by_cases hb : k.testBit 0
  · rw [h, if_pos hb]
  · exfalso
    rw [if_neg hb, ← neg_one_zsmul] at h
    have hd := (zsmul_eq_zero_iff hP (acc k 255 + 1)).mp (by
      rw [add_zsmul, h, one_zsmul, neg_one_zsmul, neg_add_cancel])
    obtain ⟨hN1, hN2, hN3, hN4⟩ := secpN_bounds
    have hb' : k % 2 = 0 := by
      rw [Nat.testBit_zero, decide_eq_true_eq] at hb; omega
    have hacc : acc k 255 = 2 ^ 256 + k + 1 := by
      rw [acc, show 256 - 255 = 1 from rfl, pow_one]
      push_cast
      omega
    have htq : (tQ : ℤ) = 2 * secpN - 2 ^ 256 := by decide +kernel
    rw [hacc] at hd
    obtain ⟨c, hc⟩ := hd
    have h1 : 1 < c := by
      by_contra h
      have : (secpN : ℤ) * c ≤ secpN * 1 := by nlinarith
      omega
    have h2 : c < 3 := by
      by_contra h
      have : (secpN : ℤ) * 3 ≤ secpN * c :=
        mul_le_mul_of_nonneg_left (by omega : 3 ≤ c) (by omega : (0 : ℤ) ≤ secpN)
      have e : (2 : ℤ) ^ 257 = 2 * 2 ^ 256 := pow_succ' 2 256
      have hk' : (k : ℤ) < 2 ^ 256 := by exact_mod_cast hk
      omega
    have : c = 2 := by omega
    subst this
    omega

/-- The output of the scalar multiplication circuit is the multiple of `P` by `2^256 + k`, where `k` is
the number formed by the witness' bits `kBits`, for every witness, whatever the scalar.  Missing for
the full property: `k` is not tied to the scalar (`mul_any_multiple`), the bits of the scalar `-2`
leave the output free (`mul_minus_two_free`), and regularity. -/
theorem mul_partial (P : Secp) (hP : P ≠ 0) (scalar : Fp) (kBits : ℕ → Fp) (k : ℕ) (hk : k < 2 ^ 256)
    (hb : AreBits 256 k kBits) (hr : Regular P k) (hne : k + 2 ≠ tQ) (out : Fp × Fp) :
    Mul scalar (xy P).1 (xy P).2 kBits out.1 out.2 ↔ out = xy ((2 ^ 256 + k) • P) := by
  rw [Mul, and_iff_right (k_of_bits hk hb scalar), mulSteps_iff hP hk hb hr,
    addComplete_curve hr.2 (last_double hP hk hne), acc_last]

/-- Every witness' bits are the bits of some number. -/
theorem mul_bits {scalar xP yP oX oY : Fp} {kBits : ℕ → Fp} (h : Mul scalar xP yP kBits oX oY) :
    ∃ k < 2 ^ 256, AreBits 256 k kBits :=
  bits_of_k h.1

/-- `(2^256 + k) P` is always an output, also for the scalar `-2`. -/
theorem mul_complete_bits (P : Secp) (hP : P ≠ 0) (scalar : Fp) (kBits : ℕ → Fp) (k : ℕ)
    (hk : k < 2 ^ 256) (hb : AreBits 256 k kBits) (hr : Regular P k) :
    Mul scalar (xy P).1 (xy P).2 kBits (xy ((2 ^ 256 + k) • P)).1 (xy ((2 ^ 256 + k) • P)).2 := by
  rw [Mul, and_iff_right (k_of_bits hk hb scalar), mulSteps_iff hP hk hb hr, ← acc_last]
  by_cases hd : acc k 255 • P = (if k.testBit 0 then 0 else -P) ∧ acc k 255 • P ≠ 0
  · rw [← hd.1]
    exact (add_complete_double _ hd.2 (0, 0)).2
  · exact (addComplete_curve hr.2 (fun h => by_contra fun h' => hd ⟨h, h'⟩)).mpr rfl

/-- An honest prover: with the bits computed by the hints from a scalar outside the window,
`scalar * P` is an output, and the only one unless the scalar is `-2`. -/
theorem mul_honest_partial (P : Secp) (hP : P ≠ 0) (s : Fp)
    (hs : ¬ (2 ^ 128 ≤ s.val + tQlo ∧ s.val < 2 ^ 128)) :
    ∃ k < 2 ^ 256, (∀ kBits, KHonest s kBits ↔ AreBits 256 k kBits) ∧ (Regular P k →
      (∃ kBits, KHonest s kBits ∧ Mul s (xy P).1 (xy P).2 kBits (xy (s.val • P)).1 (xy (s.val • P)).2) ∧
      ((s.val : ZMod secpN) ≠ -2 → ∀ kBits out, KHonest s kBits →
        Mul s (xy P).1 (xy P).2 kBits out.1 out.2 → out = xy (s.val • P))) := by
  obtain ⟨k, hk, e, hh⟩ := k_honest_partial s hs
  have hk' : k < 2 ^ 256 := lt_trans hk (by decide +kernel)
  have em : (2 ^ 256 + k) • P = s.val • P := by
    rw [← secp_smul_nat, ← secp_smul_nat, Nat.cast_add, e, Nat.cast_pow, Nat.cast_ofNat,
      add_sub_cancel]
  refine ⟨k, hk', hh, fun hr => ⟨?_, ?_⟩⟩
  · refine ⟨fun i => if k.testBit i then 1 else 0, (hh _).mpr (fun i _ => rfl), ?_⟩
    rw [← em]
    exact mul_complete_bits P hP s _ k hk' (fun i _ => rfl) hr
  · intro hm2 kBits out hkb hm
    rw [← em]
    refine (mul_partial P hP s kBits k hk' ((hh _).mp hkb) hr ?_ out).mp hm
    intro hc
    apply hm2
    have e2 : ((k + 2 : ℕ) : ZMod secpN) = (tQ : ℕ) := by rw [hc]
    rw [k_consts.2.1, Nat.cast_sub (by decide +kernel), Nat.cast_mul, ZMod.natCast_self, Nat.cast_pow,
      Nat.cast_add, e] at e2
    push_cast at e2
    linear_combination e2

/-- The scalar is not bound: for every scalar and every number `k` below `2^256` (in particular the
recoding of any other scalar) there is a witness whose output is `(2^256 + k) P`. -/
theorem mul_any_multiple (P : Secp) (hP : P ≠ 0) (scalar : Fp) (k : ℕ) (hk : k < 2 ^ 256)
    (hr : Regular P k) :
    ∃ kBits, Mul scalar (xy P).1 (xy P).2 kBits (xy ((2 ^ 256 + k) • P)).1
      (xy ((2 ^ 256 + k) • P)).2 :=
  ⟨fun i => if k.testBit i then 1 else 0,
    mul_complete_bits P hP scalar _ k hk (fun i _ => rfl) hr⟩

/-- The bits of the scalar `-2` leave the output free: every line through `-P` gives one. -/
theorem mul_minus_two_free (P : Secp) (hP : P ≠ 0) (scalar : Fp) (kBits : ℕ → Fp)
    (hb : AreBits 256 (tQ - 2) kBits) (hr : Regular P (tQ - 2)) (out : Fp × Fp) :
    Mul scalar (xy P).1 (xy P).2 kBits out.1 out.2 ↔
      ∃ l, out.1 = l ^ 2 - 2 * (xy P).1 ∧ out.2 = l * ((xy P).1 - out.1) + (xy P).2 := by
  have hk : tQ - 2 < 2 ^ 256 := by decide +kernel
  have ha : acc (tQ - 2) 255 • P = -P := by
    have e : acc (tQ - 2) 255 = 2 * (secpN : ℤ) - 1 := by decide +kernel
    rw [e, sub_zsmul, one_zsmul, (zsmul_eq_zero_iff hP _).mpr (Dvd.intro_left _ rfl), zero_add]
  have hbit : (tQ - 2).testBit 0 = false := by decide +kernel
  rw [Mul, and_iff_right (k_of_bits hk hb scalar), mulSteps_iff hP hk hb hr, ha, hbit, if_neg (by simp),
    addComplete_double (neg_ne_zero.mpr hP), xy_neg]
  simp only [sub_neg_eq_add]

/-- An output of the scalar multiplication circuit that is not a point of the curve. -/
theorem mul_off_curve (scalar : Fp) :
    (∀ P : Secp, (-2 * (xy G).1, (xy G).2) ≠ xy P) ∧
    Mul scalar (xy G).1 (xy G).2 (fun i => if (tQ - 2).testBit i then 1 else 0)
      (-2 * (xy G).1) (xy G).2 := by
  constructor
  · intro P hc
    have h0 : (xy P).1 ≠ 0 := by
      rw [← hc]
      exact mul_ne_zero (neg_ne_zero.mpr Koblitz.secp_consts.1) (x_ne Koblitz.secpG_on)
    obtain ⟨x, y, hn, rfl⟩ := Koblitz.exists_coords P (fun h => h0 (xy_x_zero.mpr h))
    have h1 := Koblitz.secp_nonsingular.mp hn
    have h2 := Koblitz.secp_nonsingular.mp Koblitz.secpG_on
    obtain ⟨ex, ey⟩ := Prod.mk.inj hc
    rw [← ex, ← ey] at h1
    simp only [G, xy_some] at h1
    have h3 : (3 * 3 : Fp) * (Koblitz.secpGx : Fp) ^ 3 = 0 := by linear_combination h1 - h2
    rcases mul_eq_zero.mp h3 with h | h
    · exact mul_ne_zero Koblitz.secp_consts.2.1 Koblitz.secp_consts.2.1 h
    · exact x_ne Koblitz.secpG_on (pow_eq_zero_iff three_ne_zero |>.mp h)
  · exact (mul_minus_two_free G G_ne scalar _ (fun i _ => rfl) regular_ex2
      (-2 * (xy G).1, (xy G).2)).mpr ⟨0, by simp only; ring, by simp only; ring⟩

/-- The scalar multiplication circuit is not sound: for every scalar it has a witness for the
generator `G` whose output is not the multiple of `G` by that scalar, and not even a point. -/
theorem mul_not_sound (scalar : Fp) :
    ∃ kBits out, (∀ P : Secp, out ≠ xy P) ∧ out ≠ xy (scalar.val • G) ∧
      Mul scalar (xy G).1 (xy G).2 kBits out.1 out.2 :=
  ⟨_, _, (mul_off_curve scalar).1, (mul_off_curve scalar).1 _, (mul_off_curve scalar).2⟩

/-- Non-vacuity: multiplying the generator by 12345 meets all hypotheses. -/
example : ∃ kBits, Mul 12345 (xy G).1 (xy G).2 kBits (xy (12345 • G)).1 (xy (12345 • G)).2 := by
  have h := mul_any_multiple G G_ne 12345 (tQ + 12345) (by decide +kernel) regular_ex1
  have e : (2 ^ 256 + (tQ + 12345)) • G = 12345 • G := by
    rw [← secp_smul_nat, ← secp_smul_nat]
    exact congrArg (· • G) <| MParams.cast_eq_of_mod (by decide +kernel)
  rwa [e] at h

example : tQ + 12345 + 2 ≠ tQ := by decide +kernel

/-! ### C54: efficient ECDSA -/

/-- The public key computed by the circuit is `(2^256 + k) T + U` where `k` is the number formed by the
witness' bits. -/
theorem eff_ecdsa_circuit_partial (T U : Secp) (hT : T ≠ 0) (s : Fp) (kBits : ℕ → Fp) (k : ℕ)
    (hk : k < 2 ^ 256) (hb : AreBits 256 k kBits) (hr : Regular T k) (hne : k + 2 ≠ tQ)
    (hz : ¬ FalseZero ((2 ^ 256 + k) • T) U) (hd : (2 ^ 256 + k) • T = U → U = 0) (out : Fp × Fp) :
    EfficientECDSA s (xy T).1 (xy T).2 (xy U).1 (xy U).2 kBits out.1 out.2 ↔
      out = xy ((2 ^ 256 + k) • T + U) := by
  constructor
  · rintro ⟨mX, mY, hm, ha⟩
    have h1 := (mul_partial T hT s kBits k hk hb hr hne (mX, mY)).mp hm
    rw [(mk_eq h1).1, (mk_eq h1).2, addComplete_curve hz (fun h => by rw [h]; exact hd h)] at ha
    exact ha
  · intro h
    refine ⟨_, _, mul_complete_bits T hT s kBits k hk hb hr, ?_⟩
    exact (addComplete_curve hz (fun h => by rw [h]; exact hd h)).mpr h

/-- For an honest prover outside the exceptional cases `s T + U` is an output of the circuit, and the
only one unless the scalar is `-2`. -/
theorem eff_ecdsa_honest_partial (T U : Secp) (hT : T ≠ 0) (s : Fp)
    (hs : ¬ (2 ^ 128 ≤ s.val + tQlo ∧ s.val < 2 ^ 128))
    (hz : ¬ FalseZero (s.val • T) U) (hd : s.val • T = U → U = 0) :
    ∃ k < 2 ^ 256, (∀ kBits, KHonest s kBits ↔ AreBits 256 k kBits) ∧ (Regular T k →
      (∃ kBits, KHonest s kBits ∧ EfficientECDSA s (xy T).1 (xy T).2 (xy U).1 (xy U).2 kBits
        (xy (s.val • T + U)).1 (xy (s.val • T + U)).2) ∧
      ((s.val : ZMod secpN) ≠ -2 → ∀ kBits out, KHonest s kBits →
        EfficientECDSA s (xy T).1 (xy T).2 (xy U).1 (xy U).2 kBits out.1 out.2 →
          out = xy (s.val • T + U))) := by
  obtain ⟨k, hk, hh, hm⟩ := mul_honest_partial T hT s hs
  refine ⟨k, hk, hh, fun hr => ⟨?_, ?_⟩⟩
  · obtain ⟨kBits, h1, h2⟩ := (hm hr).1
    exact ⟨kBits, h1, _, _, h2, (addComplete_curve hz (fun h => by rw [h]; exact hd h)).mpr rfl⟩
  · rintro h2 kBits out h3 ⟨mX, mY, h4, h5⟩
    have h1 := (hm hr).2 h2 kBits (mX, mY) h3 h4
    rw [(mk_eq h1).1, (mk_eq h1).2, addComplete_curve hz (fun h => by rw [h]; exact hd h)] at h5
    exact h5

/-- The input `s` is not used: any value can be replaced by any other. -/
theorem eff_ecdsa_ignores_s (s s' Tx Ty Ux Uy : Fp) (kBits : ℕ → Fp) (oX oY : Fp) :
    EfficientECDSA s Tx Ty Ux Uy kBits oX oY ↔ EfficientECDSA s' Tx Ty Ux Uy kBits oX oY := by
  simp only [EfficientECDSA, Mul, k_outputs]

/-- `EfficientECDSA` can output values that are not a point of the curve, with any `s`. -/
theorem eff_ecdsa_not_sound : ∃ (T U : Secp) (kBits : ℕ → Fp) (out : Fp × Fp), T ≠ 0 ∧
    (∀ P : Secp, out ≠ xy P) ∧
    ∀ s, EfficientECDSA s (xy T).1 (xy T).2 (xy U).1 (xy U).2 kBits out.1 out.2 := by
  refine ⟨G, 0, _, _, G_ne, (mul_off_curve 0).1, fun s => ⟨_, _, (mul_off_curve s).2, ?_⟩⟩
  have hx : -2 * (xy G).1 ≠ 0 :=
    mul_ne_zero (neg_ne_zero.mpr Koblitz.secp_consts.1) (x_ne Koblitz.secpG_on)
  have hy : (xy G).2 ≠ 1 := by
    show ((Koblitz.secpGy : ℕ) : Fp) ≠ 1
    rw [← Nat.cast_one, Ne, cast_inj (by decide +kernel) (by decide +kernel)]
    decide +kernel
  rw [addComplete_iff]
  have h2 : 2 * (xy G).2 ≠ 0 := two_y_ne Koblitz.secpG_on
  refine ⟨(xy G).2 / (-2 * (xy G).1), 3 * (-2 * (xy G).1) ^ 2 / (2 * (xy G).2), _, ?_,
    div_mul_cancel₀ _ h2, rfl, ?_⟩
  · rw [xy_zero, if_neg hx, zero_sub, zero_sub, neg_mul, mul_div_cancel₀ _ hx]
  · simp only [xy_zero, hx, if_false, add_zero, hy, false_and, or_false, if_true]

/-! ### C57: bit decomposition of field elements -/

/-- The 256-bit decomposition of a field element is unique exactly when its canonical representative is
at least `2^256 - p`. -/
theorem num2bits_unique_iff (x : Fp) :
    (∀ b b' : ℕ → Fp, Num2Bits 256 x b → Num2Bits 256 x b' → ∀ i < 256, b i = b' i) ↔
      2 ^ 256 - secpP ≤ x.val := by
  have hp := secpP_big
  have hx : x.val < secpP := ZMod.val_lt x
  constructor
  · intro h
    by_contra hlt
    have h1 : Num2Bits 256 x (fun i => if x.val.testBit i then 1 else 0) :=
      num2Bits_iff.mpr ⟨x.val, by omega, fun i _ => rfl, ZMod.natCast_zmod_val x⟩
    have h2 : Num2Bits 256 x (fun i => if (x.val + secpP).testBit i then 1 else 0) :=
      num2Bits_iff.mpr ⟨x.val + secpP, by omega, fun i _ => rfl, by
        rw [Nat.cast_add, ZMod.natCast_self, add_zero, ZMod.natCast_zmod_val]⟩
    have h3 := areBits_unique (n := 256) (by omega) (by omega) (fun i _ => rfl)
      (fun i hi => h _ _ h1 h2 i hi)
    omega
  · intro h b b' h1 h2 i hi
    have key : ∀ {b : ℕ → Fp}, Num2Bits 256 x b → AreBits 256 x.val b := by
      intro b hb
      obtain ⟨v, hv, hvb, hvx⟩ := num2Bits_iff.mp hb
      have : v % secpP = x.val := by rw [← hvx, ZMod.val_natCast]
      have hv' : v = x.val := by
        by_cases hlt : v < secpP
        · rwa [Nat.mod_eq_of_lt hlt] at this
        · rw [Nat.mod_eq_sub_mod (by omega), Nat.mod_eq_of_lt (by omega)] at this
          omega
      rw [← hv']; exact hvb
    rw [key h1 i hi, key h2 i hi]

/-- Every decomposition is that of the canonical representative or of the representative plus `p`. -/
theorem num2bits_solutions (x : Fp) (b : ℕ → Fp) :
    Num2Bits 256 x b ↔ AreBits 256 x.val b ∨ (x.val + secpP < 2 ^ 256 ∧ AreBits 256 (x.val + secpP) b) := by
  have hp := secpP_big
  have hx : x.val < secpP := ZMod.val_lt x
  constructor
  · intro hb
    obtain ⟨v, hv, hvb, hvx⟩ := num2Bits_iff.mp hb
    have : v % secpP = x.val := by rw [← hvx, ZMod.val_natCast]
    by_cases hlt : v < secpP
    · rw [Nat.mod_eq_of_lt hlt] at this
      left; rwa [← this]
    · rw [Nat.mod_eq_sub_mod (by omega), Nat.mod_eq_of_lt (by omega)] at this
      have hv' : v = x.val + secpP := by omega
      right
      rw [← hv']; exact ⟨hv, hvb⟩
  · rintro (h | ⟨h1, h⟩)
    · exact num2Bits_iff.mpr ⟨x.val, by omega, h, ZMod.natCast_zmod_val x⟩
    · exact num2Bits_iff.mpr ⟨_, h1, h, by
        rw [Nat.cast_add, ZMod.natCast_self, add_zero, ZMod.natCast_zmod_val]⟩

/-- There are field elements with two decompositions. -/
theorem num2bits_not_unique : ∃ (x : Fp) (b b' : ℕ → Fp), Num2Bits 256 x b ∧ Num2Bits 256 x b' ∧
    ∃ i < 256, b i ≠ b' i := by
  have h := (num2bits_unique_iff 0).not.mpr (by rw [ZMod.val_zero]; decide +kernel)
  push Not at h
  obtain ⟨b, b', h1, h2, i, hi, h3⟩ := h
  exact ⟨0, b, b', h1, h2, i, hi, h3⟩

example : 2 ^ 256 - secpP ≤ ((2 ^ 33 : ℕ) : Fp).val := by
  rw [ZMod.val_natCast_of_lt (by decide +kernel)]; decide +kernel

end Spartan.Circuit
