import Mathlib.Data.ZMod.Basic
import Mathlib.Tactic.LinearCombination
import Mathlib.Tactic.Linarith
import Mathlib.Tactic.Ring
import Mathlib.Tactic.NormNum
import Verif.Spec.Limbs

/-!
Correctness of the limb arithmetic: every step as an integer equation, then sub, add, neg,
the Montgomery reduction, mul and square.
-/

set_option exponentiation.threshold 2000

namespace Spartan

/-- The integer of a limb. -/
def zv (x : UInt64) : ℤ := x.toNat

theorem zv_nonneg (x : UInt64) : 0 ≤ zv x := Int.natCast_nonneg _

theorem zv_lt (x : UInt64) : zv x < 2 ^ 64 := by
  have := x.toNat_lt
  unfold zv; exact_mod_cast this

theorem zv_zero : zv 0 = 0 := rfl

theorem adc_spec {a b c lo hi : UInt64} (h : adc a b c = (lo, hi)) :
    zv lo + 2 ^ 64 * zv hi = zv a + zv b + zv c := by
  simp only [adc, Prod.mk.injEq] at h
  obtain ⟨rfl, rfl⟩ := h
  have ha := a.toNat_lt; have hb := b.toNat_lt; have hc := c.toNat_lt
  simp only [zv, UInt64.toNat_ofNat']
  norm_cast
  omega

theorem mac_spec {a b c d lo hi : UInt64} (h : mac a b c d = (lo, hi)) :
    zv lo + 2 ^ 64 * zv hi = zv a + zv b * zv c + zv d := by
  simp only [mac, Prod.mk.injEq] at h
  obtain ⟨rfl, rfl⟩ := h
  have ha := a.toNat_lt; have hb := b.toNat_lt; have hc := c.toNat_lt; have hd := d.toNat_lt
  have hm : b.toNat * c.toNat ≤ (2 ^ 64 - 1) * (2 ^ 64 - 1) :=
    Nat.mul_le_mul (by omega) (by omega)
  simp only [zv, UInt64.toNat_ofNat']
  norm_cast
  generalize b.toNat * c.toNat = m at *
  omega

/-- A borrow word: all ones when the borrow is set, zero otherwise. -/
def IsBorrow (w : UInt64) (β : ℤ) : Prop :=
  (β = 0 ∧ w = 0) ∨ (β = 1 ∧ w = 0xffffffffffffffff)

theorem isBorrow_zero : IsBorrow 0 0 := Or.inl ⟨rfl, rfl⟩

theorem sbb_spec {a b w lo hi : UInt64} {β : ℤ} (hw : IsBorrow w β) (h : sbb a b w = (lo, hi)) :
    ∃ β', IsBorrow hi β' ∧ zv lo = zv a - zv b - β + 2 ^ 64 * β' := by
  simp only [sbb, Prod.mk.injEq] at h
  obtain ⟨rfl, rfl⟩ := h
  have ha := a.toNat_lt; have hb := b.toNat_lt
  have key : ∀ k : Nat, k ≤ 1 → ∃ β' : ℤ,
      IsBorrow (UInt64.ofNat ((a.toNat + 2 ^ 128 - (b.toNat + k)) % 2 ^ 128 / 2 ^ 64)) β' ∧
      zv (UInt64.ofNat ((a.toNat + 2 ^ 128 - (b.toNat + k)) % 2 ^ 128))
        = zv a - zv b - k + 2 ^ 64 * β' := by
    intro k hk
    by_cases hlt : a.toNat < b.toNat + k
    · refine ⟨1, Or.inr ⟨rfl, ?_⟩, ?_⟩
      · apply UInt64.toNat_inj.mp
        rw [UInt64.toNat_ofNat']
        have : (a.toNat + 2 ^ 128 - (b.toNat + k)) % 2 ^ 128 / 2 ^ 64 % 2 ^ 64 = 2 ^ 64 - 1 := by
          omega
        rw [this]; rfl
      · simp only [zv, UInt64.toNat_ofNat']
        omega
    · refine ⟨0, Or.inl ⟨rfl, ?_⟩, ?_⟩
      · apply UInt64.toNat_inj.mp
        rw [UInt64.toNat_ofNat']
        have : (a.toNat + 2 ^ 128 - (b.toNat + k)) % 2 ^ 128 / 2 ^ 64 % 2 ^ 64 = 0 := by omega
        rw [this]; rfl
      · simp only [zv, UInt64.toNat_ofNat']
        omega
  rcases hw with ⟨rfl, rfl⟩ | ⟨rfl, rfl⟩
  · simpa using key 0 (by norm_num)
  · simpa using key 1 (by norm_num)

theorem and_borrow {w : UInt64} {β : ℤ} (h : IsBorrow w β) (x : UInt64) :
    zv (x &&& w) = β * zv x := by
  rcases h with ⟨rfl, rfl⟩ | ⟨rfl, rfl⟩
  · simp [zv]
  · rw [show (0xffffffffffffffff : UInt64) = -1 from rfl, UInt64.and_neg_one, one_mul]

theorem isBorrow_cases {w : UInt64} {β : ℤ} (h : IsBorrow w β) : β = 0 ∨ β = 1 := by
  rcases h with h | h
  · exact Or.inl h.1
  · exact Or.inr h.1

/-- The integer of a limb vector. -/
def Limbs.zval (a : Limbs) : ℤ :=
  zv a.l0 + 2 ^ 64 * zv a.l1 + 2 ^ 128 * zv a.l2 + 2 ^ 192 * zv a.l3 + 2 ^ 256 * zv a.l4

theorem Limbs.zval_eq (a : Limbs) : a.zval = (a.val : ℤ) := by
  simp [Limbs.zval, Limbs.val, zv]

theorem Limbs.zval_nonneg (a : Limbs) : 0 ≤ a.zval := by
  rw [Limbs.zval_eq]; exact Int.natCast_nonneg _

theorem Limbs.zval_lt (a : Limbs) : a.zval < 2 ^ 320 := by
  have h0 := zv_lt a.l0; have h1 := zv_lt a.l1; have h2 := zv_lt a.l2; have h3 := zv_lt a.l3
  have h4 := zv_lt a.l4
  unfold Limbs.zval
  omega

namespace MParams

/-- What the constants must satisfy. -/
structure Valid (M : MParams) (m : Nat) : Prop where
  val : M.modulus.val = m
  top : M.modulus.l4 = 0
  pos : 2 < m
  odd : m % 2 = 1
  big : 2 ^ 255 < m
  inv : (m * M.inv.toNat + 1) % 2 ^ 64 = 0
  r : M.r.val = 2 ^ 256 % m
  r2 : M.r2.val = 2 ^ 512 % m
  r3 : M.r3.val = 2 ^ 768 % m

variable {M : MParams} {m : Nat}

theorem Valid.lt (hM : M.Valid m) : m < 2 ^ 256 := by
  have h0 := M.modulus.l0.toNat_lt; have h1 := M.modulus.l1.toNat_lt
  have h2 := M.modulus.l2.toNat_lt; have h3 := M.modulus.l3.toNat_lt
  have := hM.val
  rw [Limbs.val, hM.top] at this
  have z : (0 : UInt64).toNat = 0 := rfl
  omega

theorem Valid.zval (hM : M.Valid m) : M.modulus.zval = m := by rw [Limbs.zval_eq, hM.val]

/-- `sub` computes the difference, adding the modulus once when it is negative. -/
theorem sub_spec (a b : Limbs) : ∃ β : ℤ, (β = 0 ∨ β = 1) ∧
    ∃ γ : ℤ, (M.sub a b).zval = a.zval - b.zval + β * M.modulus.zval + 2 ^ 320 * γ ∧
      (β = 0 → b.zval ≤ a.zval) ∧ (β = 1 → a.zval < b.zval) := by
  unfold MParams.sub
  rcases h0 : sbb a.l0 b.l0 0 with ⟨d0, b0⟩
  rcases h1 : sbb a.l1 b.l1 b0 with ⟨d1, b1⟩
  rcases h2 : sbb a.l2 b.l2 b1 with ⟨d2, b2⟩
  rcases h3 : sbb a.l3 b.l3 b2 with ⟨d3, b3⟩
  rcases h4 : sbb a.l4 b.l4 b3 with ⟨d4, b4⟩
  dsimp only
  simp only [h1, h2, h3, h4]
  rcases k0 : adc d0 (M.modulus.l0 &&& b4) 0 with ⟨e0, c0⟩
  rcases k1 : adc d1 (M.modulus.l1 &&& b4) c0 with ⟨e1, c1⟩
  rcases k2 : adc d2 (M.modulus.l2 &&& b4) c1 with ⟨e2, c2⟩
  rcases k3 : adc d3 (M.modulus.l3 &&& b4) c2 with ⟨e3, c3⟩
  rcases k4 : adc d4 (M.modulus.l4 &&& b4) c3 with ⟨e4, c4⟩
  simp only [k1, k2, k3, k4]
  obtain ⟨β0, w0, s0⟩ := sbb_spec isBorrow_zero h0
  obtain ⟨β1, w1, s1⟩ := sbb_spec w0 h1
  obtain ⟨β2, w2, s2⟩ := sbb_spec w1 h2
  obtain ⟨β3, w3, s3⟩ := sbb_spec w2 h3
  obtain ⟨β4, w4, s4⟩ := sbb_spec w3 h4
  have t0 := adc_spec k0
  have t1 := adc_spec k1
  have t2 := adc_spec k2
  have t3 := adc_spec k3
  have t4 := adc_spec k4
  rw [and_borrow w4] at t0 t1 t2 t3 t4
  rw [zv_zero] at t0
  refine ⟨β4, isBorrow_cases w4, β4 - zv c4, ?_, ?_, ?_⟩
  · simp only [Limbs.zval]
    linear_combination t0 + 2 ^ 64 * t1 + 2 ^ 128 * t2 + 2 ^ 192 * t3 + 2 ^ 256 * t4
      + s0 + 2 ^ 64 * s1 + 2 ^ 128 * s2 + 2 ^ 192 * s3 + 2 ^ 256 * s4
  · intro hβ
    subst hβ
    have e : (⟨d0, d1, d2, d3, d4⟩ : Limbs).zval = a.zval - b.zval := by
      simp only [Limbs.zval]
      linear_combination s0 + 2 ^ 64 * s1 + 2 ^ 128 * s2 + 2 ^ 192 * s3 + 2 ^ 256 * s4
    have := (⟨d0, d1, d2, d3, d4⟩ : Limbs).zval_nonneg
    linarith
  · intro hβ
    subst hβ
    have e : (⟨d0, d1, d2, d3, d4⟩ : Limbs).zval = a.zval - b.zval + 2 ^ 320 := by
      simp only [Limbs.zval]
      linear_combination s0 + 2 ^ 64 * s1 + 2 ^ 128 * s2 + 2 ^ 192 * s3 + 2 ^ 256 * s4
    have := (⟨d0, d1, d2, d3, d4⟩ : Limbs).zval_lt
    linarith

/-- Subtraction of values below the modulus, and reduction of a value below twice the modulus. -/
theorem sub_val (hM : M.Valid m) {a b : Limbs} (ha : a.zval < b.zval + m) (hb : b.zval ≤ m) :
    (M.sub a b).zval = if b.zval ≤ a.zval then a.zval - b.zval else a.zval - b.zval + m := by
  obtain ⟨β, hβ, γ, hs, h0, h1⟩ := sub_spec (M := M) a b
  rw [hM.zval] at hs
  have hm := hM.lt
  have hmz : (m : ℤ) < 2 ^ 256 := by exact_mod_cast hm
  have p1 := (M.sub a b).zval_nonneg
  have p2 := (M.sub a b).zval_lt
  have p3 := a.zval_nonneg
  rcases hβ with rfl | rfl
  · rw [if_pos (h0 rfl)]
    have := h0 rfl
    omega
  · have h2 := h1 rfl
    rw [if_neg (by omega)]
    omega

theorem add_zval (hM : M.Valid m) {a b : Limbs} (ha : a.zval < m) (hb : b.zval < m) :
    (M.add a b).zval
      = if (m : ℤ) ≤ a.zval + b.zval then a.zval + b.zval - m else a.zval + b.zval := by
  unfold MParams.add
  rcases k0 : adc a.l0 b.l0 0 with ⟨e0, c0⟩
  rcases k1 : adc a.l1 b.l1 c0 with ⟨e1, c1⟩
  rcases k2 : adc a.l2 b.l2 c1 with ⟨e2, c2⟩
  rcases k3 : adc a.l3 b.l3 c2 with ⟨e3, c3⟩
  rcases k4 : adc a.l4 b.l4 c3 with ⟨e4, c4⟩
  simp only [k1, k2, k3, k4]
  have t0 := adc_spec k0
  have t1 := adc_spec k1
  have t2 := adc_spec k2
  have t3 := adc_spec k3
  have t4 := adc_spec k4
  rw [zv_zero] at t0
  have hmz : (m : ℤ) < 2 ^ 256 := by exact_mod_cast hM.lt
  have e : (⟨e0, e1, e2, e3, e4⟩ : Limbs).zval = a.zval + b.zval := by
    have h : (⟨e0, e1, e2, e3, e4⟩ : Limbs).zval + 2 ^ 320 * zv c4 = a.zval + b.zval := by
      simp only [Limbs.zval]
      linear_combination t0 + 2 ^ 64 * t1 + 2 ^ 128 * t2 + 2 ^ 192 * t3 + 2 ^ 256 * t4
    have := (⟨e0, e1, e2, e3, e4⟩ : Limbs).zval_nonneg
    have := zv_nonneg c4
    omega
  rw [sub_val hM (by rw [e, hM.zval]; omega) (by rw [hM.zval]), e, hM.zval]
  split <;> ring

theorem neg_zval (hM : M.Valid m) {a : Limbs} (ha : a.zval < m) :
    (M.neg a).zval = if a.zval = 0 then 0 else m - a.zval := by
  unfold MParams.neg
  rcases h0 : sbb M.modulus.l0 a.l0 0 with ⟨d0, b0⟩
  rcases h1 : sbb M.modulus.l1 a.l1 b0 with ⟨d1, b1⟩
  rcases h2 : sbb M.modulus.l2 a.l2 b1 with ⟨d2, b2⟩
  rcases h3 : sbb M.modulus.l3 a.l3 b2 with ⟨d3, b3⟩
  rcases h4 : sbb M.modulus.l4 a.l4 b3 with ⟨d4, b4⟩
  simp only [h1, h2, h3, h4]
  obtain ⟨β0, w0, s0⟩ := sbb_spec isBorrow_zero h0
  obtain ⟨β1, w1, s1⟩ := sbb_spec w0 h1
  obtain ⟨β2, w2, s2⟩ := sbb_spec w1 h2
  obtain ⟨β3, w3, s3⟩ := sbb_spec w2 h3
  obtain ⟨β4, w4, s4⟩ := sbb_spec w3 h4
  have hor : (a.l0 ||| a.l1 ||| a.l2 ||| a.l3 ||| a.l4) = 0 ↔ a.zval = 0 := by
    rw [UInt64.or_eq_zero_iff, UInt64.or_eq_zero_iff, UInt64.or_eq_zero_iff,
      UInt64.or_eq_zero_iff]
    have hz : ∀ x : UInt64, x = 0 ↔ zv x = 0 := fun x => by
      rw [zv, ← UInt64.toNat_inj]; simp
    rw [hz, hz, hz, hz, hz, Limbs.zval]
    have := zv_nonneg a.l0; have := zv_nonneg a.l1; have := zv_nonneg a.l2
    have := zv_nonneg a.l3; have := zv_nonneg a.l4
    omega
  by_cases hz : a.zval = 0
  · rw [if_pos (hor.mpr hz), if_pos hz]
    simp [Limbs.zval, zv]
  · rw [if_neg (fun h => hz (hor.mp h)), if_neg hz]
    have hmask : (0 : UInt64) - 1 = -1 := rfl
    simp only [hmask, UInt64.and_neg_one]
    have e : (⟨d0, d1, d2, d3, d4⟩ : Limbs).zval = M.modulus.zval - a.zval + 2 ^ 320 * β4 := by
      simp only [Limbs.zval]
      linear_combination s0 + 2 ^ 64 * s1 + 2 ^ 128 * s2 + 2 ^ 192 * s3 + 2 ^ 256 * s4
    have p1 := (⟨d0, d1, d2, d3, d4⟩ : Limbs).zval_nonneg
    have p2 := (⟨d0, d1, d2, d3, d4⟩ : Limbs).zval_lt
    have p3 := a.zval_nonneg
    have hmz : (m : ℤ) < 2 ^ 256 := by exact_mod_cast hM.lt
    rw [hM.zval] at e
    rcases isBorrow_cases w4 with rfl | rfl <;> omega

/-- One row of the reduction adds a multiple of the modulus and shifts down by one limb. -/
theorem montRow_spec (hM : M.Valid m) {r0 r1 r2 r3 r4 r5 c s1 s2 s3 s4 s5 c' : UInt64}
    (h : M.montRow r0 r1 r2 r3 r4 r5 c = (s1, s2, s3, s4, s5, c')) :
    ∃ k : ℤ, 0 ≤ k ∧ k < 2 ^ 64 ∧
      2 ^ 64 * (zv s1 + 2 ^ 64 * zv s2 + 2 ^ 128 * zv s3 + 2 ^ 192 * zv s4 + 2 ^ 256 * zv s5
        + 2 ^ 320 * zv c')
      = zv r0 + 2 ^ 64 * zv r1 + 2 ^ 128 * zv r2 + 2 ^ 192 * zv r3 + 2 ^ 256 * zv r4
        + 2 ^ 320 * (zv r5 + zv c) + k * m := by
  unfold montRow at h
  simp only at h
  rcases k0 : mac r0 (r0 * M.inv) M.modulus.l0 0 with ⟨t0, c0⟩
  rw [k0] at h
  simp only at h
  rcases k1 : mac r1 (r0 * M.inv) M.modulus.l1 c0 with ⟨t1, c1⟩
  rw [k1] at h
  simp only at h
  rcases k2 : mac r2 (r0 * M.inv) M.modulus.l2 c1 with ⟨t2, c2⟩
  rw [k2] at h
  simp only at h
  rcases k3 : mac r3 (r0 * M.inv) M.modulus.l3 c2 with ⟨t3, c3⟩
  rw [k3] at h
  simp only at h
  rcases k4 : mac r4 (r0 * M.inv) M.modulus.l4 c3 with ⟨t4, c4⟩
  rw [k4] at h
  simp only at h
  rcases k5 : adc r5 c c4 with ⟨t5, c5⟩
  rw [k5] at h
  simp only [Prod.mk.injEq] at h
  obtain ⟨rfl, rfl, rfl, rfl, rfl, rfl⟩ := h
  have e0 := mac_spec k0
  have e1 := mac_spec k1
  have e2 := mac_spec k2
  have e3 := mac_spec k3
  have e4 := mac_spec k4
  have e5 := adc_spec k5
  have hmod := hM.zval
  -- the low limb vanishes
  have hlow : zv t0 = 0 := by
    have hk : (r0 * M.inv).toNat = r0.toNat * M.inv.toNat % 2 ^ 64 := UInt64.toNat_mul _ _
    have hm0 : m % 2 ^ 64 = M.modulus.l0.toNat := by
      have := hM.val
      rw [Limbs.val] at this
      have := M.modulus.l0.toNat_lt
      omega
    have ht : (t0.toNat + 2 ^ 64 * c0.toNat : ℤ) = r0.toNat + (r0 * M.inv).toNat
        * M.modulus.l0.toNat + 0 := by
      have := e0
      rw [zv_zero] at this
      simpa [zv] using this
    have ht' : t0.toNat + 2 ^ 64 * c0.toNat = r0.toNat + (r0 * M.inv).toNat
        * M.modulus.l0.toNat := by rw [add_zero] at ht; exact_mod_cast ht
    have h1 : (r0.toNat + (r0 * M.inv).toNat * M.modulus.l0.toNat) % 2 ^ 64 = 0 := by
      rw [hk, ← hm0, Nat.add_mod, ← Nat.mul_mod, ← Nat.add_mod,
        show r0.toNat + r0.toNat * M.inv.toNat * m = r0.toNat * (m * M.inv.toNat + 1) by ring,
        Nat.mul_mod, hM.inv, Nat.mul_zero, Nat.zero_mod]
    have h2 := t0.toNat_lt
    rw [← ht'] at h1
    simp only [zv]
    have : t0.toNat = 0 := by omega
    simp [this]
  rw [hlow, zv_zero] at e0
  refine ⟨zv (r0 * M.inv), zv_nonneg _, zv_lt _, ?_⟩
  rw [← hmod, Limbs.zval]
  linear_combination e0 + 2 ^ 64 * e1 + 2 ^ 128 * e2 + 2 ^ 192 * e3 + 2 ^ 256 * e4 + 2 ^ 320 * e5

/-- The Montgomery reduction of `X < 2^256 m` is the reduced residue of `X / 2^256`. -/
theorem montgomeryReduce_spec (hM : M.Valid m) (r0 r1 r2 r3 r4 r5 r6 r7 r8 : UInt64) (X : ℤ)
    (hX : X = zv r0 + 2 ^ 64 * zv r1 + 2 ^ 128 * zv r2 + 2 ^ 192 * zv r3 + 2 ^ 256 * zv r4
      + 2 ^ 320 * zv r5 + 2 ^ 384 * zv r6 + 2 ^ 448 * zv r7 + 2 ^ 512 * zv r8)
    (hlt : X < 2 ^ 256 * m) :
    (M.montgomeryReduce r0 r1 r2 r3 r4 r5 r6 r7 r8).zval < m ∧
    ∃ k : ℤ, 2 ^ 256 * (M.montgomeryReduce r0 r1 r2 r3 r4 r5 r6 r7 r8).zval = X + k * m := by
  unfold montgomeryReduce
  rcases h1 : M.montRow r0 r1 r2 r3 r4 r5 0 with ⟨a1, a2, a3, a4, a5, ca⟩
  rcases h2 : M.montRow a1 a2 a3 a4 a5 r6 ca with ⟨b2, b3, b4, b5, b6, cb⟩
  rcases h3 : M.montRow b2 b3 b4 b5 b6 r7 cb with ⟨d3, d4, d5, d6, d7, cd⟩
  rcases h4 : M.montRow d3 d4 d5 d6 d7 r8 cd with ⟨e4, e5, e6, e7, e8, ce⟩
  simp only [h2, h3, h4]
  obtain ⟨k1, k1n, k1l, s1⟩ := montRow_spec hM h1
  obtain ⟨k2, k2n, k2l, s2⟩ := montRow_spec hM h2
  obtain ⟨k3, k3n, k3l, s3⟩ := montRow_spec hM h3
  obtain ⟨k4, k4n, k4l, s4⟩ := montRow_spec hM h4
  rw [zv_zero] at s1
  have hmz : (m : ℤ) < 2 ^ 256 := by exact_mod_cast hM.lt
  have hm0 : (0 : ℤ) < m := by have := hM.pos; omega
  set K := k1 + 2 ^ 64 * k2 + 2 ^ 128 * k3 + 2 ^ 192 * k4 with hK
  have hsum : 2 ^ 256 * ((⟨e4, e5, e6, e7, e8⟩ : Limbs).zval + 2 ^ 320 * zv ce) = X + K * m := by
    simp only [Limbs.zval]
    rw [hX, hK]
    linear_combination s1 + 2 ^ 64 * s2 + 2 ^ 128 * s3 + 2 ^ 192 * s4
  have hKlt : K < 2 ^ 256 := by omega
  have hKm : K * m < 2 ^ 256 * m := by nlinarith
  have p1 := (⟨e4, e5, e6, e7, e8⟩ : Limbs).zval_nonneg
  have p2 := zv_nonneg ce
  have hT : (⟨e4, e5, e6, e7, e8⟩ : Limbs).zval + 2 ^ 320 * zv ce < 2 * m := by
    by_contra hc
    push Not at hc
    nlinarith
  have hce : zv ce = 0 := by omega
  rw [hce, mul_zero, add_zero] at hsum hT
  rw [sub_val hM (by rw [hM.zval]; omega) (by rw [hM.zval]), hM.zval]
  split
  · refine ⟨by omega, K - 2 ^ 256, ?_⟩
    rw [mul_sub, hsum]; ring
  · refine ⟨by omega, K, ?_⟩
    rw [← hsum]; ring

theorem mulRow_spec {r0 r1 r2 r3 r4 a s0 s1 s2 s3 s4 c : UInt64} {b : Limbs}
    (h : mulRow r0 r1 r2 r3 r4 a b = (s0, s1, s2, s3, s4, c)) :
    zv s0 + 2 ^ 64 * zv s1 + 2 ^ 128 * zv s2 + 2 ^ 192 * zv s3 + 2 ^ 256 * zv s4
      + 2 ^ 320 * zv c
    = zv r0 + 2 ^ 64 * zv r1 + 2 ^ 128 * zv r2 + 2 ^ 192 * zv r3 + 2 ^ 256 * zv r4
      + zv a * b.zval := by
  unfold mulRow at h
  rcases k0 : mac r0 a b.l0 0 with ⟨t0, c0⟩
  rw [k0] at h
  simp only at h
  rcases k1 : mac r1 a b.l1 c0 with ⟨t1, c1⟩
  rw [k1] at h
  simp only at h
  rcases k2 : mac r2 a b.l2 c1 with ⟨t2, c2⟩
  rw [k2] at h
  simp only at h
  rcases k3 : mac r3 a b.l3 c2 with ⟨t3, c3⟩
  rw [k3] at h
  simp only at h
  rcases k4 : mac r4 a b.l4 c3 with ⟨t4, c4⟩
  rw [k4] at h
  simp only [Prod.mk.injEq] at h
  obtain ⟨rfl, rfl, rfl, rfl, rfl, rfl⟩ := h
  have e0 := mac_spec k0
  have e1 := mac_spec k1
  have e2 := mac_spec k2
  have e3 := mac_spec k3
  have e4 := mac_spec k4
  rw [zv_zero] at e0
  rw [Limbs.zval]
  linear_combination e0 + 2 ^ 64 * e1 + 2 ^ 128 * e2 + 2 ^ 192 * e3 + 2 ^ 256 * e4

/-- Products below `2^256 m` are reduced correctly. -/
theorem mul_zval (hM : M.Valid m) {a b : Limbs} (hab : a.zval * b.zval < 2 ^ 256 * m) :
    (M.mul a b).zval < m ∧ ∃ k : ℤ, 2 ^ 256 * (M.mul a b).zval = a.zval * b.zval + k * m := by
  unfold MParams.mul
  rcases h0 : mulRow 0 0 0 0 0 a.l0 b with ⟨r0, r1, r2, r3, r4, r5⟩
  rcases h1 : mulRow r1 r2 r3 r4 r5 a.l1 b with ⟨s1, s2, s3, s4, s5, s6⟩
  rcases h2 : mulRow s2 s3 s4 s5 s6 a.l2 b with ⟨t2, t3, t4, t5, t6, t7⟩
  rcases h3 : mulRow t3 t4 t5 t6 t7 a.l3 b with ⟨u3, u4, u5, u6, u7, u8⟩
  rcases h4 : mulRow u4 u5 u6 u7 u8 a.l4 b with ⟨w4, w5, w6, w7, w8, w9⟩
  simp only [h1, h2, h3, h4]
  have e0 := mulRow_spec h0
  have e1 := mulRow_spec h1
  have e2 := mulRow_spec h2
  have e3 := mulRow_spec h3
  have e4 := mulRow_spec h4
  simp only [zv_zero] at e0
  set X := zv r0 + 2 ^ 64 * zv s1 + 2 ^ 128 * zv t2 + 2 ^ 192 * zv u3 + 2 ^ 256 * zv w4
      + 2 ^ 320 * zv w5 + 2 ^ 384 * zv w6 + 2 ^ 448 * zv w7 + 2 ^ 512 * zv w8 with hX
  have hsum : X + 2 ^ 576 * zv w9 = a.zval * b.zval := by
    rw [hX]
    conv_rhs => rw [Limbs.zval]
    linear_combination e0 + 2 ^ 64 * e1 + 2 ^ 128 * e2 + 2 ^ 192 * e3 + 2 ^ 256 * e4
  have hmz : (m : ℤ) < 2 ^ 256 := by exact_mod_cast hM.lt
  have hw9 : zv w9 = 0 := by
    have := zv_nonneg w9
    have h0 : 0 ≤ X := by
      rw [hX]
      have := zv_nonneg r0; have := zv_nonneg s1; have := zv_nonneg t2; have := zv_nonneg u3
      have := zv_nonneg w4; have := zv_nonneg w5; have := zv_nonneg w6; have := zv_nonneg w7
      have := zv_nonneg w8
      positivity
    omega
  rw [hw9, mul_zero, add_zero] at hsum
  have := montgomeryReduce_spec hM r0 s1 t2 u3 w4 w5 w6 w7 w8 X hX (by rw [hsum]; exact hab)
  rwa [hsum] at this

theorem shl1_or (x y : UInt64) :
    ((x <<< 1) ||| (y >>> 63)).toNat = 2 * x.toNat % 2 ^ 64 + y.toNat / 2 ^ 63 := by
  have hy := y.toNat_lt
  rw [UInt64.toNat_or, UInt64.toNat_shiftLeft, UInt64.toNat_shiftRight]
  have e1 : (1 : UInt64).toNat % 64 = 1 := rfl
  have e2 : (63 : UInt64).toNat % 64 = 63 := rfl
  rw [e1, e2, Nat.shiftRight_eq_div_pow]
  have h1 : x.toNat <<< 1 % 2 ^ 64 = (x.toNat % 2 ^ 63) <<< 1 := by
    rw [Nat.shiftLeft_eq, Nat.shiftLeft_eq]; omega
  rw [h1, ← Nat.shiftLeft_add_eq_or_of_lt (by omega), Nat.shiftLeft_eq]
  omega

/-- The square of a four-limb value below `2^256`. -/
theorem square_zval (hM : M.Valid m) {a : Limbs} (h4 : a.l4 = 0)
    (hab : a.zval * a.zval < 2 ^ 256 * m) :
    (M.square a).zval < m ∧
      ∃ k : ℤ, 2 ^ 256 * (M.square a).zval = a.zval * a.zval + k * m := by
  unfold MParams.square
  rcases h1 : mac 0 a.l0 a.l1 0 with ⟨x1, c1⟩
  rcases h2 : mac 0 a.l0 a.l2 c1 with ⟨x2, c2⟩
  rcases h3 : mac 0 a.l0 a.l3 c2 with ⟨x3, x4⟩
  rcases h5 : mac x3 a.l1 a.l2 0 with ⟨y3, c3⟩
  rcases h6 : mac x4 a.l1 a.l3 c3 with ⟨y4, y5⟩
  rcases h7 : mac y5 a.l2 a.l3 0 with ⟨z5, z6⟩
  simp only [h2, h3, h5, h6, h7]
  obtain ⟨q7, hq7⟩ : ∃ q, q = z6 >>> 63 := ⟨_, rfl⟩
  obtain ⟨q6, hq6⟩ : ∃ q, q = (z6 <<< 1) ||| (z5 >>> 63) := ⟨_, rfl⟩
  obtain ⟨q5, hq5⟩ : ∃ q, q = (z5 <<< 1) ||| (y4 >>> 63) := ⟨_, rfl⟩
  obtain ⟨q4, hq4⟩ : ∃ q, q = (y4 <<< 1) ||| (y3 >>> 63) := ⟨_, rfl⟩
  obtain ⟨q3, hq3⟩ : ∃ q, q = (y3 <<< 1) ||| (x2 >>> 63) := ⟨_, rfl⟩
  obtain ⟨q2, hq2⟩ : ∃ q, q = (x2 <<< 1) ||| (x1 >>> 63) := ⟨_, rfl⟩
  obtain ⟨q1, hq1⟩ : ∃ q, q = x1 <<< 1 := ⟨_, rfl⟩
  rw [← hq1, ← hq2, ← hq3, ← hq4, ← hq5, ← hq6, ← hq7]
  rcases k0 : mac 0 a.l0 a.l0 0 with ⟨r0, d0⟩
  rcases k1 : adc 0 q1 d0 with ⟨r1, d1⟩
  rcases k2 : mac q2 a.l1 a.l1 d1 with ⟨r2, d2⟩
  rcases k3 : adc 0 q3 d2 with ⟨r3, d3⟩
  rcases k4 : mac q4 a.l2 a.l2 d3 with ⟨r4, d4⟩
  rcases k5 : adc 0 q5 d4 with ⟨r5, d5⟩
  rcases k6 : mac q6 a.l3 a.l3 d5 with ⟨r6, d6⟩
  rcases k7 : adc 0 q7 d6 with ⟨r7, d7⟩
  simp only [k1, k2, k3, k4, k5, k6, k7]
  have e1 := mac_spec h1; have e2 := mac_spec h2; have e3 := mac_spec h3
  have e5 := mac_spec h5; have e6 := mac_spec h6; have e7 := mac_spec h7
  have f0 := mac_spec k0; have f1 := adc_spec k1; have f2 := mac_spec k2
  have f3 := adc_spec k3; have f4 := mac_spec k4; have f5 := adc_spec k5
  have f6 := mac_spec k6; have f7 := adc_spec k7
  simp only [zv_zero] at e1 e2 e3 e5 e7 f0 f1 f3 f5 f7
  -- the shifted cross terms
  have hdbl : 2 ^ 64 * zv q1 + 2 ^ 128 * zv q2 + 2 ^ 192 * zv q3 + 2 ^ 256 * zv q4
      + 2 ^ 320 * zv q5 + 2 ^ 384 * zv q6 + 2 ^ 448 * zv q7
      = 2 * (2 ^ 64 * zv x1 + 2 ^ 128 * zv x2 + 2 ^ 192 * zv y3 + 2 ^ 256 * zv y4
        + 2 ^ 320 * zv z5 + 2 ^ 384 * zv z6) := by
    have g7 : zv q7 = zv z6 / 2 ^ 63 := by
      rw [hq7, zv, zv, UInt64.toNat_shiftRight, Nat.shiftRight_eq_div_pow]
      norm_cast
    have gor : ∀ {q x y : UInt64}, q = (x <<< 1) ||| (y >>> 63) →
        zv q = 2 * zv x % 2 ^ 64 + zv y / 2 ^ 63 := by
      intro q x y h
      rw [h, zv, shl1_or, zv, zv]
      norm_cast
    have g1 : zv q1 = 2 * zv x1 % 2 ^ 64 := by
      rw [hq1, zv, zv, UInt64.toNat_shiftLeft, Nat.shiftLeft_eq]
      norm_cast
      rw [mul_comm]
      rfl
    have g6 := gor hq6; have g5 := gor hq5; have g4 := gor hq4; have g3 := gor hq3
    have g2 := gor hq2
    omega
  set X := zv r0 + 2 ^ 64 * zv r1 + 2 ^ 128 * zv r2 + 2 ^ 192 * zv r3 + 2 ^ 256 * zv r4
      + 2 ^ 320 * zv r5 + 2 ^ 384 * zv r6 + 2 ^ 448 * zv r7 + 2 ^ 512 * zv 0 with hX
  have hsum : X + 2 ^ 512 * zv d7 = a.zval * a.zval := by
    rw [hX, zv_zero, Limbs.zval, h4, zv_zero]
    linear_combination f0 + 2 ^ 64 * f1 + 2 ^ 128 * f2 + 2 ^ 192 * f3 + 2 ^ 256 * f4
      + 2 ^ 320 * f5 + 2 ^ 384 * f6 + 2 ^ 448 * f7 + hdbl
      + 2 ^ 65 * e1 + 2 ^ 129 * e2 + 2 ^ 193 * e3 + 2 ^ 193 * e5 + 2 ^ 257 * e6 + 2 ^ 321 * e7
  have hmz : (m : ℤ) < 2 ^ 256 := by exact_mod_cast hM.lt
  have hd7 : zv d7 = 0 := by
    have := zv_nonneg d7
    have h0 : 0 ≤ X := by
      rw [hX]
      have := zv_nonneg r0; have := zv_nonneg r1; have := zv_nonneg r2; have := zv_nonneg r3
      have := zv_nonneg r4; have := zv_nonneg r5; have := zv_nonneg r6; have := zv_nonneg r7
      rw [zv_zero]
      positivity
    omega
  rw [hd7, mul_zero, add_zero] at hsum
  have := montgomeryReduce_spec hM r0 r1 r2 r3 r4 r5 r6 r7 0 X hX (by rw [hsum]; exact hab)
  rwa [hsum] at this

end MParams
end Spartan
