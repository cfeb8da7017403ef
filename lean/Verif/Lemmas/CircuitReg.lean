import Verif.Lemmas.CircuitK

/-! Checking concretely that a scalar multiplication of the generator is regular. -/

set_option exponentiation.threshold 2000

namespace Spartan.Circuit

open Spec WeierstrassCurve.Affine Koblitz

/-- The generator of secp256k1. -/
noncomputable def G : Secp := .some _ _ Koblitz.secpG_on

theorem G_ne : G ≠ 0 := Point.some_ne_zero _

def msb (n : ℕ) : List Bool := (List.range (Nat.log2 n)).reverse.map fun i => n.testBit i

def ladF (n : ℕ) : ℕ × ℕ × ℕ := (msb n).foldl (ladderStep secpP secpGx secpGy) (secpGx, secpGy, 1)

def ladN (n : ℕ) : ℕ × ℕ × ℕ := if n = secpN then (0, 0, 1) else ladF n

def ladOk (n : ℕ) : Bool :=
  decide (n = secpN) ||
  (decide ((msb n).foldl (fun k b => 2 * k + b.toNat) 1 = n) && decide ((ladF n).2.2 % secpP ≠ 0))

def sgnN (b : Bool) : ℕ × ℕ × ℕ := (secpGx, if b then secpGy else secpP - secpGy, 1)

def nfz (s t : ℕ × ℕ × ℕ) : Bool :=
  decide ((s.2.1 * t.2.2 ^ 3 + t.2.1 * s.2.2 ^ 3) % secpP ≠ (s.2.2 ^ 3 * t.2.2 ^ 3) % secpP)

def accN (k i : ℕ) : ℕ := 2 ^ (i + 1) + 2 * (k / 2 ^ (256 - i)) + 1

def stepN (b : Bool) (n : ℕ) : ℕ := if b then n + 1 else n - 1

def regularG (k : ℕ) : Bool :=
  ([1, 2, 3].all fun j =>
    ladOk (accN k (255 - j)) && (ladOk (stepN (k.testBit j) (accN k (255 - j))) &&
      (nfz (sgnN (k.testBit j)) (ladN (accN k (255 - j))) &&
        nfz (ladN (accN k (255 - j))) (ladN (stepN (k.testBit j) (accN k (255 - j))))))) &&
  (ladOk (accN k 255) &&
    (if k.testBit 0 then decide ((ladN (accN k 255)).2.1 % secpP ≠ (ladN (accN k 255)).2.2 ^ 3 % secpP)
      else nfz (ladN (accN k 255)) (sgnN false)))

/-- Projective coordinates of a point, or `(0, 0, Z)` for zero. -/
def XRep (s : ℕ × ℕ × ℕ) (A : Secp) : Prop :=
  (s.1 : Fp) = (xy A).1 * s.2.2 ^ 2 ∧ (s.2.1 : Fp) = (xy A).2 * s.2.2 ^ 3 ∧ (s.2.2 : Fp) ≠ 0

theorem srep_lad {n : ℕ} (h : ladOk n = true) : XRep (ladN n) (n • G) := by
  rw [ladOk, Bool.or_eq_true, Bool.and_eq_true, decide_eq_true_eq, decide_eq_true_eq,
    decide_eq_true_eq] at h
  by_cases hn : n = secpN
  · rw [ladN, if_pos hn, hn, show secpN • G = 0 from Koblitz.secpG_order]
    refine ⟨by simp, by simp, by simp⟩
  · have h := h.resolve_left hn
    have h1 : SRep (m := secpP) (secpGx, secpGy, 1) (1 • G) := by
      refine ⟨_, _, Koblitz.secpG_on, one_nsmul _, ?_, ?_, ?_⟩ <;> simp
    have h2 := fold_rep Koblitz.secpG_on (msb n) _ 1 h1 (by
      rw [Ne, ZMod.natCast_eq_zero_iff]
      exact fun hc => h.2 (Nat.mod_eq_zero_of_dvd hc))
    rw [h.1] at h2
    obtain ⟨x, y, n1, e, e1, e2, z⟩ := h2
    rw [ladN, if_neg hn, show n • G = _ from e]
    exact ⟨e1, e2, z⟩

theorem srep_sgn (b : Bool) : XRep (sgnN b) (sgn b • G) := by
  refine ⟨?_, ?_, by simp [sgnN]⟩
  · rw [sgn_x]; simp [sgnN, G]
  · cases b
    · have hle : secpGy ≤ secpP := by decide +kernel
      rw [sgn_y false G rfl]
      simp [sgnN, G, Nat.cast_sub hle]
    · rw [sgn_y true G rfl]
      simp [sgnN, G]; ring

theorem not_falseZero {A B : Secp} {s t : ℕ × ℕ × ℕ} (hs : XRep s A)
    (ht : XRep t B) (h : nfz s t = true) : ¬ FalseZero A B := by
  rintro ⟨_, hy⟩
  obtain ⟨e1, e2, z1⟩ := hs
  obtain ⟨e3, e4, z2⟩ := ht
  rw [nfz, decide_eq_true_eq] at h
  apply h
  have : ((s.2.1 * t.2.2 ^ 3 + t.2.1 * s.2.2 ^ 3 : ℕ) : ZMod secpP) = ((s.2.2 ^ 3 * t.2.2 ^ 3 : ℕ) : ZMod secpP) := by
    push_cast
    rw [e2, e4]
    linear_combination (s.2.2 : ZMod secpP) ^ 3 * (t.2.2 : ZMod secpP) ^ 3 * hy
  exact (ZMod.natCast_eq_natCast_iff' _ _ _).mp this

theorem not_falseZero_zero {A : Secp} {s : ℕ × ℕ × ℕ} (hs : XRep s A)
    (h : s.2.1 % secpP ≠ s.2.2 ^ 3 % secpP) : ¬ FalseZero A 0 := by
  rintro ⟨_, hy⟩
  obtain ⟨e1, e2, z1⟩ := hs
  apply h
  simp only [xy_zero, add_zero] at hy
  have : ((s.2.1 : ℕ) : ZMod secpP) = ((s.2.2 ^ 3 : ℕ) : ZMod secpP) := by
    push_cast
    rw [e2, hy, one_mul]
  exact (ZMod.natCast_eq_natCast_iff' _ _ _).mp this

theorem acc_eq (k i : ℕ) : acc k i = (accN k i : ℤ) := rfl

theorem stepN_cast (b : Bool) {n : ℕ} (hn : 0 < n) : sgn b + (n : ℤ) = (stepN b n : ℤ) := by
  cases b
  · rw [stepN, if_neg (by simp), sgn, if_neg (by simp)]; omega
  · rw [stepN, if_pos rfl, sgn, if_pos rfl]; omega

theorem regular_of_check {k : ℕ} (h : regularG k = true) : Regular G k := by
  rw [regularG, Bool.and_eq_true, List.all_eq_true] at h
  obtain ⟨h1, h2⟩ := h
  constructor
  · intro j hj1 hj3
    have hj : j ∈ [1, 2, 3] := by
      have : j = 1 ∨ j = 2 ∨ j = 3 := by omega
      rcases this with rfl | rfl | rfl <;> simp
    have hc := h1 j hj
    simp only [Bool.and_eq_true] at hc
    obtain ⟨l1, l2, f1, f2⟩ := hc
    rw [acc_eq, stepN_cast _ (show 0 < accN k (255 - j) from Nat.succ_pos _), natCast_zsmul, natCast_zsmul]
    exact ⟨not_falseZero (srep_sgn _) (srep_lad l1) f1,
      not_falseZero (srep_lad l1) (srep_lad l2) f2⟩
  · rw [Bool.and_eq_true] at h2
    obtain ⟨l, f⟩ := h2
    rw [acc_eq, natCast_zsmul]
    by_cases hb : k.testBit 0
    · rw [if_pos hb] at f ⊢
      exact not_falseZero_zero (srep_lad l) (of_decide_eq_true f)
    · rw [if_neg hb] at f ⊢
      have := not_falseZero (srep_lad l) (srep_sgn false) f
      rwa [show sgn false • G = -G by rw [sgn, if_neg (by simp), neg_one_zsmul]] at this

theorem regular_ex1 : Regular G (tQ + 12345) := regular_of_check (by decide +kernel)

theorem regular_ex2 : Regular G (tQ - 2) := regular_of_check (by decide +kernel)

end Spartan.Circuit
