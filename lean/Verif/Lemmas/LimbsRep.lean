import Mathlib.FieldTheory.Finite.Basic
import Verif.Lemmas.Limbs
import Verif.Lemmas.Primes

/-!
The limb operations as operations on residues.
-/

set_option exponentiation.threshold 2000

namespace Spartan
namespace MParams

theorem valid_P : paramsP.Valid secpP := by constructor <;> decide +kernel

theorem valid_Q : paramsQ.Valid secpN := by constructor <;> decide +kernel

variable {M : MParams} {m : Nat}

/-! ### The residue of a limb vector -/

theorem Valid.neZero (hM : M.Valid m) : NeZero m := ⟨by have := hM.pos; omega⟩

theorem Valid.unit (hM : M.Valid m) : IsUnit ((2 : ZMod m) ^ 256) := by
  apply IsUnit.pow
  have : Nat.Coprime 2 m := by
    rw [Nat.Prime.coprime_iff_not_dvd Nat.prime_two]
    have := hM.odd
    omega
  have h := (ZMod.isUnit_iff_coprime 2 m).mpr this
  simpa using h

theorem cast_zval (a : Limbs) : ((a.zval : ℤ) : ZMod m) = (a.val : ZMod m) := by
  rw [Limbs.zval_eq]; simp

theorem zval_lt_iff {a : Limbs} : a.zval < (m : ℤ) ↔ a.val < m := by
  rw [Limbs.zval_eq]; exact_mod_cast Iff.rfl

theorem top_zero (hM : M.Valid m) {a : Limbs} (ha : a.val < m) : a.l4 = 0 := by
  have := hM.lt
  rw [Limbs.val] at ha
  apply UInt64.toNat_inj.mp
  have z : (0 : UInt64).toNat = 0 := rfl
  omega

theorem val_inj (hM : M.Valid m) {a b : Limbs} (ha : a.val < m) (hb : b.val < m)
    (h : a.val = b.val) : a = b := by
  have ta := top_zero hM ha
  have tb := top_zero hM hb
  rcases a with ⟨a0, a1, a2, a3, a4⟩
  rcases b with ⟨b0, b1, b2, b3, b4⟩
  simp only [Limbs.val] at h
  simp only at ta tb
  subst ta tb
  have := a0.toNat_lt; have := a1.toNat_lt; have := a2.toNat_lt; have := a3.toNat_lt
  have := b0.toNat_lt; have := b1.toNat_lt; have := b2.toNat_lt; have := b3.toNat_lt
  have h0 : a0.toNat = b0.toNat := by omega
  have h1 : a1.toNat = b1.toNat := by omega
  have h2 : a2.toNat = b2.toNat := by omega
  have h3 : a3.toNat = b3.toNat := by omega
  rw [UInt64.toNat_inj.mp h0, UInt64.toNat_inj.mp h1, UInt64.toNat_inj.mp h2,
    UInt64.toNat_inj.mp h3]

theorem rep_inj (hM : M.Valid m) {a b : Limbs} {x : ZMod m} (ha : a.Rep m x) (hb : b.Rep m x) :
    a = b := by
  haveI := hM.neZero
  refine val_inj hM ha.1 hb.1 ?_
  have h := ha.2.trans hb.2.symm
  have := congrArg ZMod.val h
  rwa [ZMod.val_natCast, ZMod.val_natCast, Nat.mod_eq_of_lt ha.1, Nat.mod_eq_of_lt hb.1] at this

theorem rep_unique (hM : M.Valid m) {a : Limbs} {x y : ZMod m} (hx : a.Rep m x)
    (hy : a.Rep m y) : x = y :=
  hM.unit.mul_right_cancel (hx.2.symm.trans hy.2)

theorem rep_iff_eq (hM : M.Valid m) {a b : Limbs} {x y : ZMod m} (ha : a.Rep m x)
    (hb : b.Rep m y) : a = b ↔ x = y :=
  ⟨fun h => rep_unique hM ha (h ▸ hb), fun h => rep_inj hM ha (h ▸ hb)⟩

/-- Every reduced vector represents exactly one residue. -/
theorem exists_rep (hM : M.Valid m) {a : Limbs} (ha : a.val < m) : ∃ x : ZMod m, a.Rep m x := by
  obtain ⟨u, hu⟩ := hM.unit
  refine ⟨a.val * ↑u⁻¹, ha, ?_⟩
  rw [← hu, mul_assoc, Units.inv_mul, mul_one]

/-! ### Ring operations -/

theorem rep_zero (hM : M.Valid m) : zero.Rep m 0 :=
  ⟨by have := hM.pos; simp [Limbs.val, zero]; omega, by simp [Limbs.val, zero]⟩

theorem rep_one (hM : M.Valid m) : M.one.Rep m 1 := by
  have hp := hM.pos
  refine ⟨by rw [one, hM.r]; exact Nat.mod_lt _ (by omega), ?_⟩
  rw [one, hM.r, one_mul, ZMod.natCast_mod]
  norm_cast

theorem rep_add (hM : M.Valid m) {a b : Limbs} {x y : ZMod m} (ha : a.Rep m x)
    (hb : b.Rep m y) : (M.add a b).Rep m (x + y) := by
  have h := add_zval hM (zval_lt_iff.mpr ha.1) (zval_lt_iff.mpr hb.1)
  have h1 := zval_lt_iff.mpr ha.1
  have h2 := zval_lt_iff.mpr hb.1
  refine ⟨zval_lt_iff.mp ?_, ?_⟩
  · rw [h]; split <;> omega
  · rw [← cast_zval, h]
    split <;> push_cast <;> rw [cast_zval, cast_zval, ha.2, hb.2]
    · rw [ZMod.natCast_self]; ring
    · ring

theorem rep_double (hM : M.Valid m) {a : Limbs} {x : ZMod m} (ha : a.Rep m x) :
    (M.double a).Rep m (2 * x) := by
  rw [two_mul]; exact rep_add hM ha ha

theorem rep_sub (hM : M.Valid m) {a b : Limbs} {x y : ZMod m} (ha : a.Rep m x)
    (hb : b.Rep m y) : (M.sub a b).Rep m (x - y) := by
  have h1 := zval_lt_iff.mpr ha.1
  have h2 := zval_lt_iff.mpr hb.1
  have p1 := a.zval_nonneg
  have p2 := b.zval_nonneg
  have h := sub_val hM (a := a) (b := b) (by omega) (by omega)
  refine ⟨zval_lt_iff.mp ?_, ?_⟩
  · rw [h]; split <;> omega
  · rw [← cast_zval, h]
    split <;> push_cast <;> rw [cast_zval, cast_zval, ha.2, hb.2]
    · ring
    · rw [ZMod.natCast_self]; ring

theorem rep_neg (hM : M.Valid m) {a : Limbs} {x : ZMod m} (ha : a.Rep m x) :
    (M.neg a).Rep m (-x) := by
  have h1 := zval_lt_iff.mpr ha.1
  have p1 := a.zval_nonneg
  have h := neg_zval hM h1
  have hp := hM.pos
  refine ⟨zval_lt_iff.mp ?_, ?_⟩
  · rw [h]; split <;> omega
  · rw [← cast_zval, h]
    split
    · rename_i hz
      have := ha.2
      rw [← cast_zval, hz] at this
      rw [neg_mul, ← this]; simp
    · push_cast
      rw [cast_zval, ha.2, ZMod.natCast_self]; ring

/-- The product rule for an arbitrary pair whose integer product is small enough. -/
theorem mul_cast (hM : M.Valid m) {a b : Limbs} (hab : a.zval * b.zval < 2 ^ 256 * m) :
    (M.mul a b).val < m ∧
      2 ^ 256 * ((M.mul a b).val : ZMod m) = (a.val : ZMod m) * (b.val : ZMod m) := by
  obtain ⟨h1, k, hk⟩ := mul_zval hM hab
  refine ⟨zval_lt_iff.mp h1, ?_⟩
  have := congrArg (Int.cast : ℤ → ZMod m) hk
  simp only [Int.cast_mul, Int.cast_add, Int.cast_pow, Int.cast_ofNat, Int.cast_natCast] at this
  rw [cast_zval, cast_zval, cast_zval, ZMod.natCast_self, mul_zero, add_zero] at this
  exact this

theorem prod_lt (hM : M.Valid m) {a b : Limbs} (ha : a.zval < 2 ^ 256) (hb : b.val < m) :
    a.zval * b.zval < 2 ^ 256 * m := by
  have h2 := (zval_lt_iff (a := b) (m := m)).mpr hb
  have p1 := a.zval_nonneg
  have p2 := b.zval_nonneg
  have hm : (0 : ℤ) < m := by have := hM.pos; omega
  nlinarith

theorem zval_lt_256 (hM : M.Valid m) {a : Limbs} (ha : a.val < m) : a.zval < 2 ^ 256 := by
  have h1 := (zval_lt_iff (a := a) (m := m)).mpr ha
  have : (m : ℤ) < 2 ^ 256 := by exact_mod_cast hM.lt
  omega

theorem rep_mul (hM : M.Valid m) {a b : Limbs} {x y : ZMod m} (ha : a.Rep m x)
    (hb : b.Rep m y) : (M.mul a b).Rep m (x * y) := by
  obtain ⟨h1, h2⟩ := mul_cast hM (prod_lt hM (zval_lt_256 hM ha.1) hb.1)
  refine ⟨h1, hM.unit.mul_left_cancel ?_⟩
  rw [h2, ha.2, hb.2]; ring

theorem rep_square (hM : M.Valid m) {a : Limbs} {x : ZMod m} (ha : a.Rep m x) :
    (M.square a).Rep m (x * x) := by
  obtain ⟨h1, k, hk⟩ := square_zval hM (top_zero hM ha.1)
    (prod_lt hM (zval_lt_256 hM ha.1) ha.1)
  refine ⟨zval_lt_iff.mp h1, hM.unit.mul_left_cancel ?_⟩
  have := congrArg (Int.cast : ℤ → ZMod m) hk
  simp only [Int.cast_mul, Int.cast_add, Int.cast_pow, Int.cast_ofNat, Int.cast_natCast] at this
  rw [cast_zval, cast_zval, ZMod.natCast_self, mul_zero, add_zero, ha.2] at this
  rw [this]; ring

/-- `ct_eq` decides equality of residues. -/
theorem ctEq_iff (hM : M.Valid m) {a b : Limbs} {x y : ZMod m} (ha : a.Rep m x)
    (hb : b.Rep m y) : ctEq a b = true ↔ x = y := by
  rw [← rep_iff_eq hM ha hb]
  have ta := top_zero hM ha.1
  have tb := top_zero hM hb.1
  rcases a with ⟨a0, a1, a2, a3, a4⟩
  rcases b with ⟨b0, b1, b2, b3, b4⟩
  simp only at ta tb
  subst ta tb
  simp [ctEq, and_assoc]

/-! ### Conversions -/

/-- Multiplying any 256-bit integer by `R2` enters Montgomery form. -/
theorem rep_mul_r2 (hM : M.Valid m) (a b c d : UInt64) :
    (M.mul ⟨a, b, c, d, 0⟩ M.r2).Rep m ((⟨a, b, c, d, 0⟩ : Limbs).val : ZMod m) := by
  have hp := hM.pos
  have hr2 : M.r2.val < m := by rw [hM.r2]; exact Nat.mod_lt _ (by omega)
  have hlt : (⟨a, b, c, d, 0⟩ : Limbs).zval < 2 ^ 256 := by
    have := zv_lt a; have := zv_lt b; have := zv_lt c; have := zv_lt d
    simp only [Limbs.zval, zv_zero]
    omega
  obtain ⟨h1, h2⟩ := mul_cast hM (prod_lt hM hlt hr2)
  refine ⟨h1, hM.unit.mul_left_cancel ?_⟩
  rw [h2, hM.r2, ZMod.natCast_mod]
  push_cast
  ring

/-- Multiplying any 256-bit integer by `R3` represents that integer times `2^256`. -/
theorem rep_mul_r3 (hM : M.Valid m) (a b c d : UInt64) :
    (M.mul ⟨a, b, c, d, 0⟩ M.r3).Rep m
      ((⟨a, b, c, d, 0⟩ : Limbs).val * 2 ^ 256 : ZMod m) := by
  have hp := hM.pos
  have hr3 : M.r3.val < m := by rw [hM.r3]; exact Nat.mod_lt _ (by omega)
  have hlt : (⟨a, b, c, d, 0⟩ : Limbs).zval < 2 ^ 256 := by
    have := zv_lt a; have := zv_lt b; have := zv_lt c; have := zv_lt d
    simp only [Limbs.zval, zv_zero]
    omega
  obtain ⟨h1, h2⟩ := mul_cast hM (prod_lt hM hlt hr3)
  refine ⟨h1, hM.unit.mul_left_cancel ?_⟩
  rw [h2, hM.r3, ZMod.natCast_mod]
  push_cast
  ring

theorem rep_fromRaw (hM : M.Valid m) (a b c d : UInt64) :
    (M.fromRaw a b c d).Rep m ((⟨a, b, c, d, 0⟩ : Limbs).val : ZMod m) := rep_mul_r2 hM a b c d

theorem rep_fromU64 (hM : M.Valid m) (v : UInt64) :
    (M.fromU64 v).Rep m (v.toNat : ZMod m) := by
  have := rep_mul_r2 hM v 0 0 0
  rw [fromU64]
  simpa [Limbs.val] using this

theorem rep_fromU512 (hM : M.Valid m) (a b c d e f g h : UInt64) :
    (M.fromU512 a b c d e f g h).Rep m
      (((⟨a, b, c, d, 0⟩ : Limbs).val + 2 ^ 256 * (⟨e, f, g, h, 0⟩ : Limbs).val : ℕ) : ZMod m) := by
  have := rep_add hM (rep_mul_r2 hM a b c d) (rep_mul_r3 hM e f g h)
  rw [fromU512]
  convert this using 1
  push_cast
  ring

/-- Leaving Montgomery form gives the residue itself. -/
theorem reduce_val (hM : M.Valid m) {a : Limbs} {x : ZMod m} (ha : a.Rep m x) :
    (M.montgomeryReduce a.l0 a.l1 a.l2 a.l3 a.l4 0 0 0 0).val = x.val := by
  haveI := hM.neZero
  have hm0 : (0 : ℤ) < m := by have := hM.pos; omega
  obtain ⟨h1, k, hk⟩ := montgomeryReduce_spec hM a.l0 a.l1 a.l2 a.l3 a.l4 0 0 0 0 a.zval
    (by simp [Limbs.zval, zv_zero]) (by
      have := (zval_lt_iff (a := a) (m := m)).mpr ha.1
      nlinarith)
  set t := M.montgomeryReduce a.l0 a.l1 a.l2 a.l3 a.l4 0 0 0 0
  have hlt : t.val < m := zval_lt_iff.mp h1
  have hc : ((t.val : ℕ) : ZMod m) = x := by
    apply hM.unit.mul_left_cancel
    have := congrArg (Int.cast : ℤ → ZMod m) hk
    simp only [Int.cast_mul, Int.cast_add, Int.cast_pow, Int.cast_ofNat, Int.cast_natCast] at this
    rw [cast_zval, cast_zval, ZMod.natCast_self, mul_zero, add_zero, ha.2] at this
    rw [this]; ring
  rw [← hc, ZMod.val_natCast, Nat.mod_eq_of_lt hlt]

/-! ### Bytes -/

theorem leNat_append : ∀ a b : List UInt8,
    leNat (a ++ b) = leNat a + 256 ^ a.length * leNat b
  | [], b => by simp [leNat]
  | x :: a, b => by
    rw [List.cons_append, leNat, leNat, leNat_append a b, List.length_cons, pow_succ]; ring

theorem leNat_lt : ∀ a : List UInt8, leNat a < 256 ^ a.length
  | [] => by simp [leNat]
  | x :: a => by
    have h1 := leNat_lt a
    have h2 := x.toNat_lt
    rw [leNat, List.length_cons, pow_succ]
    omega

theorem leBytes_length : ∀ n x, (leBytes n x).length = n
  | 0, _ => rfl
  | n + 1, x => by rw [leBytes, List.length_cons, leBytes_length n]

theorem leNat_leBytes : ∀ n x, leNat (leBytes n x) = x % 256 ^ n
  | 0, x => by simp [leBytes, leNat, Nat.mod_one]
  | n + 1, x => by
    rw [leBytes, leNat, leNat_leBytes n, pow_succ, mul_comm (256 ^ n) 256, Nat.mod_mul]
    rfl

theorem leBytes_leNat : ∀ a : List UInt8, leBytes a.length (leNat a) = a
  | [] => rfl
  | x :: a => by
    have h2 := x.toNat_lt
    rw [List.length_cons, leBytes, leNat]
    have h3 : (x.toNat + 256 * leNat a) / 256 = leNat a := by omega
    rw [h3, leBytes_leNat a]
    congr 1
    apply UInt8.toNat_inj.mp
    rw [UInt8.toNat_ofNat']
    omega

theorem leNat_inj {a b : List UInt8} (hl : a.length = b.length) (h : leNat a = leNat b) :
    a = b := by
  rw [← leBytes_leNat a, ← leBytes_leNat b, hl, h]

theorem slice8_length {bs : List UInt8} {i : Nat} (h : i + 8 ≤ bs.length) :
    (slice8 bs i).length = 8 := by
  rw [slice8, List.length_take, List.length_drop]; omega

theorem u64FromLE_toNat {bs : List UInt8} (h : bs.length = 8) : (u64FromLE bs).toNat = leNat bs := by
  have := leNat_lt bs
  rw [h] at this
  rw [u64FromLE, UInt64.toNat_ofNat']
  omega

theorem leNat_split (bs : List UInt8) {i : Nat} (h : i + 8 ≤ bs.length) :
    leNat (bs.drop i) = leNat (slice8 bs i) + 2 ^ 64 * leNat (bs.drop (i + 8)) := by
  conv_lhs => rw [← List.take_append_drop 8 (bs.drop i)]
  rw [leNat_append, List.drop_drop]
  have := slice8_length h
  rw [slice8] at this ⊢
  rw [this]
  norm_num

theorem limbs_of_bytes {bs : List UInt8} (h : 32 ≤ bs.length) :
    (⟨u64FromLE (slice8 bs 0), u64FromLE (slice8 bs 8), u64FromLE (slice8 bs 16),
      u64FromLE (slice8 bs 24), 0⟩ : Limbs).val = leNat (bs.take 32) := by
  have e : leNat bs = leNat (bs.take 32) + 2 ^ 256 * leNat (bs.drop 32) := by
    conv_lhs => rw [← List.take_append_drop 32 bs]
    rw [leNat_append, List.length_take, Nat.min_eq_left h]
    norm_num
  have h0 := leNat_split bs (i := 0) (by omega)
  have h1 := leNat_split bs (i := 8) (by omega)
  have h2 := leNat_split bs (i := 16) (by omega)
  have h3 := leNat_split bs (i := 24) (by omega)
  rw [List.drop_zero] at h0
  simp only [Limbs.val]
  rw [u64FromLE_toNat (slice8_length (by omega)), u64FromLE_toNat (slice8_length (by omega)),
    u64FromLE_toNat (slice8_length (by omega)), u64FromLE_toNat (slice8_length (by omega))]
  have z : (0 : UInt64).toNat = 0 := rfl
  rw [z]
  norm_num at h0 h1 h2 h3 e ⊢
  omega

theorem limbs_of_bytes' {bs : List UInt8} (h : bs.length = 64) :
    (⟨u64FromLE (slice8 bs 32), u64FromLE (slice8 bs 40), u64FromLE (slice8 bs 48),
      u64FromLE (slice8 bs 56), 0⟩ : Limbs).val = leNat (bs.drop 32) := by
  have := limbs_of_bytes (bs := bs.drop 32) (by rw [List.length_drop]; omega)
  rw [List.take_of_length_le (by rw [List.length_drop]; omega)] at this
  rw [← this]
  simp only [slice8, List.drop_drop]

theorem rep_fromBytesWide (hM : M.Valid m) {bs : List UInt8} (h : bs.length = 64) :
    (M.fromBytesWide bs).Rep m (leNat bs : ZMod m) := by
  have := rep_fromU512 hM (u64FromLE (slice8 bs 0)) (u64FromLE (slice8 bs 8))
    (u64FromLE (slice8 bs 16)) (u64FromLE (slice8 bs 24))
    (u64FromLE (slice8 bs 32)) (u64FromLE (slice8 bs 40))
    (u64FromLE (slice8 bs 48)) (u64FromLE (slice8 bs 56))
  rw [limbs_of_bytes (by omega), limbs_of_bytes' h] at this
  have e : leNat bs = leNat (bs.take 32) + 2 ^ 256 * leNat (bs.drop 32) := by
    conv_lhs => rw [← List.take_append_drop 32 bs]
    rw [leNat_append, List.length_take, Nat.min_eq_left (by omega)]
    norm_num
  rw [e]
  exact this

/-- The borrow out of the comparison with the modulus. -/
theorem fromBytes_eq (hM : M.Valid m) {bs : List UInt8} (h : bs.length = 32) :
    M.fromBytes bs = if leNat bs < m then
      some (M.mul ⟨u64FromLE (slice8 bs 0), u64FromLE (slice8 bs 8), u64FromLE (slice8 bs 16),
        u64FromLE (slice8 bs 24), 0⟩ M.r2) else none := by
  have hv := limbs_of_bytes (bs := bs) (by omega)
  rw [List.take_of_length_le (by omega)] at hv
  unfold MParams.fromBytes
  simp only
  generalize u64FromLE (slice8 bs 0) = t0 at hv ⊢
  generalize u64FromLE (slice8 bs 8) = t1 at hv ⊢
  generalize u64FromLE (slice8 bs 16) = t2 at hv ⊢
  generalize u64FromLE (slice8 bs 24) = t3 at hv ⊢
  rcases h0 : sbb t0 M.modulus.l0 0 with ⟨d0, b0⟩
  rcases h1 : sbb t1 M.modulus.l1 b0 with ⟨d1, b1⟩
  rcases h2 : sbb t2 M.modulus.l2 b1 with ⟨d2, b2⟩
  rcases h3 : sbb t3 M.modulus.l3 b2 with ⟨d3, b3⟩
  simp only [h1, h2, h3]
  obtain ⟨β0, w0, s0⟩ := sbb_spec isBorrow_zero h0
  obtain ⟨β1, w1, s1⟩ := sbb_spec w0 h1
  obtain ⟨β2, w2, s2⟩ := sbb_spec w1 h2
  obtain ⟨β3, w3, s3⟩ := sbb_spec w2 h3
  have hz : (⟨t0, t1, t2, t3, 0⟩ : Limbs).zval = leNat bs := by rw [Limbs.zval_eq, hv]
  have hmz := hM.zval
  have e : zv d0 + 2 ^ 64 * zv d1 + 2 ^ 128 * zv d2 + 2 ^ 192 * zv d3
      = (leNat bs : ℤ) - m + 2 ^ 256 * β3 := by
    rw [← hz, ← hmz, Limbs.zval, Limbs.zval, hM.top, zv_zero]
    linear_combination s0 + 2 ^ 64 * s1 + 2 ^ 128 * s2 + 2 ^ 192 * s3
  have l0 := zv_lt d0; have l1 := zv_lt d1; have l2 := zv_lt d2; have l3 := zv_lt d3
  have n0 := zv_nonneg d0; have n1 := zv_nonneg d1; have n2 := zv_nonneg d2
  have n3 := zv_nonneg d3
  have hm := hM.lt
  rcases w3 with ⟨hβ, hb⟩ | ⟨hβ, hb⟩
  · rw [if_neg, if_neg]
    · omega
    · rw [hb]; decide
  · rw [if_pos, if_pos]
    · omega
    · rw [hb]; decide

theorem toBytes_eq (hM : M.Valid m) {a : Limbs} {x : ZMod m} (ha : a.Rep m x) :
    M.toBytes a = leBytes 32 x.val := by
  haveI := hM.neZero
  have hv := reduce_val hM ha
  have hx : x.val < 2 ^ 256 := lt_trans (ZMod.val_lt x) hM.lt
  unfold toBytes
  simp only
  generalize M.montgomeryReduce a.l0 a.l1 a.l2 a.l3 a.l4 0 0 0 0 = t at hv ⊢
  apply leNat_inj
  · simp [u64ToLE, leBytes_length]
  · have := t.l0.toNat_lt; have := t.l1.toNat_lt; have := t.l2.toNat_lt; have := t.l3.toNat_lt
    have := t.l4.toNat_lt
    simp only [leNat_append, u64ToLE, leNat_leBytes, List.length_append, leBytes_length]
    rw [Limbs.val] at hv
    norm_num
    norm_num at hv hx
    omega

theorem toBeBytes_eq (hM : M.Valid m) {a : Limbs} {x : ZMod m} (ha : a.Rep m x) :
    M.toBeBytes a = (leBytes 32 x.val).reverse := by
  rw [← toBytes_eq hM ha]
  simp [toBeBytes, toBytes]

theorem isOdd_eq (hM : M.Valid m) {a : Limbs} {x : ZMod m} (ha : a.Rep m x) :
    M.isOdd a = decide (x.val % 2 = 1) := by
  have hv := reduce_val hM ha
  unfold isOdd
  simp only
  generalize M.montgomeryReduce a.l0 a.l1 a.l2 a.l3 a.l4 0 0 0 0 = t at hv ⊢
  have h1 : (t.l0.toUInt8 &&& 1).toNat = t.l0.toNat % 2 := by
    rw [UInt8.toNat_and]
    have : (1 : UInt8).toNat = 1 := rfl
    rw [this, Nat.and_one_is_mod, UInt64.toNat_toUInt8]
    omega
  have h2 : t.l0.toNat % 2 = x.val % 2 := by
    rw [← hv, Limbs.val]; omega
  rw [Bool.eq_iff_iff, beq_iff_eq, decide_eq_true_iff, ← h2, ← h1, ← UInt8.toNat_inj]
  rfl

end MParams
end Spartan
