import Verif.Lemmas.H2CConsts
import Verif.Model.Bullet

/-!
Properties C01–C09: the limb arithmetic of `Scalar` and of the two `FieldElement` types.

`a.Rep m x` (Spec/Limbs.lean) says that the five limbs `a` are reduced and hold the Montgomery form
of the residue `x` modulo `m`.
-/

set_option exponentiation.threshold 2000

namespace Spartan

open MParams

/-! ### Which field a set of constants stands for -/

/-- The parameter sets of the three files: the code of `scalar.rs` and `field_secp.rs` with modulus
`p`, that of `field_secq.rs` with modulus `q`. -/
inductive FieldCode : MParams → Nat → Prop
  | secp : FieldCode paramsP secpP
  | secq : FieldCode paramsQ secpN

theorem FieldCode.valid {M : MParams} {m : Nat} (h : FieldCode M m) : M.Valid m := by
  cases h
  · exact valid_P
  · exact valid_Q

theorem FieldCode.prime {M : MParams} {m : Nat} (h : FieldCode M m) : Fact m.Prime := by
  cases h
  · infer_instance
  · infer_instance

/-! ### C01, C05: ring operations -/

/-- Reduced limb vectors and residues are in bijection: every reduced vector represents exactly one
residue and every residue has exactly one representation. -/
theorem field_rep_bijective {M : MParams} {m : Nat} (h : FieldCode M m) :
    (∀ a : Limbs, a.Canon m → ∃! x : ZMod m, a.Rep m x) ∧
    (∀ x : ZMod m, ∃! a : Limbs, a.Rep m x) := by
  have hM := h.valid
  haveI := hM.neZero
  refine ⟨fun a ha => ?_, fun x => ?_⟩
  · obtain ⟨x, hx⟩ := exists_rep hM ha
    exact ⟨x, hx, fun y hy => rep_unique hM hy hx⟩
  · have hx : x.val < 2 ^ 256 := lt_trans (ZMod.val_lt x) hM.lt
    refine ⟨M.fromBytesWide (leBytes 64 x.val), ?_, fun b hb => rep_inj hM hb ?_⟩
    all_goals
      have := rep_fromBytesWide hM (leBytes_length 64 x.val)
      rw [leNat_leBytes, Nat.mod_eq_of_lt (lt_of_lt_of_le hx (by norm_num)),
        ZMod.natCast_zmod_val] at this
      exact this

/-- The ring operations of all three types return reduced vectors that represent the result of the
operation modulo `m`. -/
theorem field_ring_ops {M : MParams} {m : Nat} (h : FieldCode M m) {a b : Limbs} {x y : ZMod m}
    (ha : a.Rep m x) (hb : b.Rep m y) :
    (M.add a b).Rep m (x + y) ∧ (M.sub a b).Rep m (x - y) ∧ (M.neg a).Rep m (-x) ∧
    (M.mul a b).Rep m (x * y) ∧ (M.square a).Rep m (x ^ 2) ∧ (M.double a).Rep m (2 * x) ∧
    MParams.zero.Rep m 0 ∧ M.one.Rep m 1 ∧ (MParams.ctEq a b = true ↔ x = y) := by
  have hM := h.valid
  refine ⟨rep_add hM ha hb, rep_sub hM ha hb, rep_neg hM ha, rep_mul hM ha hb, ?_,
    rep_double hM ha, rep_zero hM, rep_one hM, ctEq_iff hM ha hb⟩
  rw [pow_two]; exact rep_square hM ha

/-- C01 for `Scalar`, on integers: for reduced inputs the outputs are reduced, and the integers they
stand for are the sum, difference, negation, product, square and double modulo `p`.
`x` and `y` range over all residues, so this covers all reduced limb vectors. -/
theorem scalar_ring_ops {a b : Limbs} {x y : ZMod secpP}
    (ha : a.Rep secpP x) (hb : b.Rep secpP y) :
    (paramsP.add a b).Rep secpP (x + y) ∧ (paramsP.sub a b).Rep secpP (x - y) ∧
    (paramsP.neg a).Rep secpP (-x) ∧ (paramsP.mul a b).Rep secpP (x * y) ∧
    (paramsP.square a).Rep secpP (x ^ 2) ∧ (paramsP.double a).Rep secpP (2 * x) ∧
    MParams.zero.Rep secpP 0 ∧ paramsP.one.Rep secpP 1 ∧
    (MParams.ctEq a b = true ↔ x = y) := field_ring_ops .secp ha hb

/-- The representation of `scalar_ring_ops` is a bijection between reduced limb vectors and the
residues modulo the prime `p`. -/
theorem scalar_rep_bijective : Nat.Prime secpP ∧
    (∀ a : Limbs, a.Canon secpP → ∃! x : ZMod secpP, a.Rep secpP x) ∧
    (∀ x : ZMod secpP, ∃! a : Limbs, a.Rep secpP x) :=
  ⟨secpP_prime, field_rep_bijective .secp⟩

/-- Non-vacuity: the limbs of `p - 1` and of `3`, with a sum that wraps around. -/
example : (paramsP.add (paramsP.neg paramsP.one) (paramsP.fromU64 3)).Rep secpP (-1 + (3 : ℕ)) :=
  (scalar_ring_ops (rep_neg valid_P (rep_one valid_P)) (rep_fromU64 valid_P 3)).1

/-! ### C02, C05: byte conversions -/

/-- `from_bytes` accepts exactly the little-endian encodings of integers below the modulus, and
then represents that integer and re-encodes to the same bytes. -/
theorem field_from_bytes {M : MParams} {m : Nat} (h : FieldCode M m) {bs : List UInt8}
    (hl : bs.length = 32) :
    ((∃ a, M.fromBytes bs = some a) ↔ leNat bs < m) ∧
    (∀ a, M.fromBytes bs = some a → a.Rep m (leNat bs : ZMod m) ∧ M.toBytes a = bs) := by
  have hM := h.valid
  haveI := hM.neZero
  rw [fromBytes_eq hM hl]
  refine ⟨?_, ?_⟩
  · split_ifs with hc <;> simp [hc]
  · intro a ha
    split_ifs at ha with hc
    rw [← Option.some.inj ha]
    have hr := rep_mul_r2 hM (u64FromLE (slice8 bs 0)) (u64FromLE (slice8 bs 8))
      (u64FromLE (slice8 bs 16)) (u64FromLE (slice8 bs 24))
    rw [limbs_of_bytes (by omega), List.take_of_length_le (by omega)] at hr
    refine ⟨hr, ?_⟩
    rw [toBytes_eq hM hr, ZMod.val_natCast, Nat.mod_eq_of_lt hc, ← hl]
    exact leBytes_leNat bs

/-- `to_bytes` gives the 32 little-endian bytes of the represented residue, and `from_bytes`
decodes them to the same element. -/
theorem field_to_bytes {M : MParams} {m : Nat} (h : FieldCode M m) {a : Limbs} {x : ZMod m}
    (ha : a.Rep m x) :
    (M.toBytes a).length = 32 ∧ leNat (M.toBytes a) = x.val ∧ M.fromBytes (M.toBytes a) = some a := by
  have hM := h.valid
  haveI := hM.neZero
  have hl : (M.toBytes a).length = 32 := by rw [toBytes_eq hM ha, leBytes_length]
  have hx : x.val < m := ZMod.val_lt x
  have hv : leNat (M.toBytes a) = x.val := by
    rw [toBytes_eq hM ha, leNat_leBytes,
      Nat.mod_eq_of_lt (lt_of_lt_of_le (lt_trans hx hM.lt) (by norm_num))]
  refine ⟨hl, hv, ?_⟩
  obtain ⟨b, hb⟩ := (field_from_bytes h hl).1.mpr (by rw [hv]; exact hx)
  have hr := ((field_from_bytes h hl).2 b hb).1
  rw [hv, ZMod.natCast_zmod_val] at hr
  rw [hb, rep_inj hM hr ha]

/-- C02, decoding. -/
theorem scalar_from_bytes {bs : List UInt8} (hl : bs.length = 32) :
    ((∃ a, paramsP.fromBytes bs = some a) ↔ leNat bs < secpP) ∧
    (∀ a, paramsP.fromBytes bs = some a →
      a.Rep secpP (leNat bs : ZMod secpP) ∧ paramsP.toBytes a = bs) := field_from_bytes .secp hl

/-- C02, encoding. -/
theorem scalar_to_bytes {a : Limbs} {x : ZMod secpP} (ha : a.Rep secpP x) :
    (paramsP.toBytes a).length = 32 ∧ leNat (paramsP.toBytes a) = x.val ∧
    paramsP.fromBytes (paramsP.toBytes a) = some a := field_to_bytes .secp ha

/-- The big-endian conversions of the `FieldElement` types are the reversed ones, and `is_odd` is
the parity of the residue. -/
theorem field_be_bytes {M : MParams} {m : Nat} (h : FieldCode M m) {a : Limbs} {x : ZMod m}
    (ha : a.Rep m x) :
    (M.toBeBytes a).reverse = M.toBytes a ∧ M.fromSec1 (M.toBeBytes a) = some a ∧
    (M.isOdd a = true ↔ x.val % 2 = 1) := by
  have hM := h.valid
  have e : (M.toBeBytes a).reverse = M.toBytes a := by
    rw [toBeBytes_eq hM ha, toBytes_eq hM ha, List.reverse_reverse]
  refine ⟨e, ?_, ?_⟩
  · rw [fromSec1, e]; exact (field_to_bytes h ha).2.2
  · rw [isOdd_eq hM ha, decide_eq_true_iff]

/-- Non-vacuity: the largest accepted and the smallest rejected encodings. -/
example : (∃ a, paramsP.fromBytes (leBytes 32 (secpP - 1)) = some a) ∧
    ¬ ∃ a, paramsP.fromBytes (leBytes 32 secpP) = some a := by
  rw [(scalar_from_bytes (leBytes_length _ _)).1, (scalar_from_bytes (leBytes_length _ _)).1,
    leNat_leBytes, leNat_leBytes]
  decide +kernel

/-! ### C03, C05: reducing conversions -/

/-- `from_bytes_wide`, `from_u512`, `from_raw`, `From<u64>` reduce the integer they are given. -/
theorem field_reductions {M : MParams} {m : Nat} (h : FieldCode M m) :
    (∀ bs : List UInt8, bs.length = 64 → (M.fromBytesWide bs).Rep m (leNat bs : ZMod m)) ∧
    (∀ a b c d : UInt64, (M.fromRaw a b c d).Rep m
      ((a.toNat + 2 ^ 64 * b.toNat + 2 ^ 128 * c.toNat + 2 ^ 192 * d.toNat : ℕ) : ZMod m)) ∧
    (∀ v : UInt64, (M.fromU64 v).Rep m (v.toNat : ZMod m)) := by
  refine ⟨fun bs hb => rep_fromBytesWide h.valid hb, fun a b c d => ?_,
    fun v => rep_fromU64 h.valid v⟩
  have := rep_fromRaw h.valid a b c d
  rwa [show (⟨a, b, c, d, 0⟩ : Limbs).val
    = a.toNat + 2 ^ 64 * b.toNat + 2 ^ 128 * c.toNat + 2 ^ 192 * d.toNat by
    simp [Limbs.val]] at this

/-- C03. -/
theorem scalar_reductions :
    (∀ bs : List UInt8, bs.length = 64 →
      (paramsP.fromBytesWide bs).Rep secpP (leNat bs : ZMod secpP)) ∧
    (∀ a b c d : UInt64, (paramsP.fromRaw a b c d).Rep secpP
      ((a.toNat + 2 ^ 64 * b.toNat + 2 ^ 128 * c.toNat + 2 ^ 192 * d.toNat : ℕ) : ZMod secpP)) ∧
    (∀ v : UInt64, (paramsP.fromU64 v).Rep secpP (v.toNat : ZMod secpP)) := field_reductions .secp

/-- Every eight words of the generator give the residue of the 512-bit integer (`random`). -/
theorem field_random {M : MParams} {m : Nat} (h : FieldCode M m) (a b c d e f g k : UInt64) :
    (M.random a b c d e f g k).Rep m
      (((⟨a, b, c, d, 0⟩ : Limbs).val + 2 ^ 256 * (⟨e, f, g, k, 0⟩ : Limbs).val : ℕ) : ZMod m) :=
  rep_fromU512 h.valid a b c d e f g k

/-- Non-vacuity: the largest 64-byte input. -/
example : (paramsP.fromBytesWide (List.replicate 64 255)).Rep secpP
    (leNat (List.replicate 64 255) : ZMod secpP) := scalar_reductions.1 _ rfl

/-! ### C04, C05: exponentiation and inversion -/

/-- `pow` (and `pow_vartime`) by a 256-bit exponent given as four limbs. -/
theorem field_pow {M : MParams} {m : Nat} (h : FieldCode M m) {a : Limbs} {x : ZMod m}
    (ha : a.Rep m x) (e0 e1 e2 e3 : UInt64) :
    (M.pow a e0 e1 e2 e3).Rep m
      (x ^ (e0.toNat + 2 ^ 64 * e1.toNat + 2 ^ 128 * e2.toNat + 2 ^ 192 * e3.toNat)) := by
  have := rep_pow h.valid ha e0 e1 e2 e3
  rwa [show (⟨e0, e1, e2, e3, 0⟩ : Limbs).val
    = e0.toNat + 2 ^ 64 * e1.toNat + 2 ^ 128 * e2.toNat + 2 ^ 192 * e3.toNat by
    simp [Limbs.val]] at this

/-- `pow_by_self`: the exponent is the canonical integer of the second argument. -/
theorem field_pow_by_self {M : MParams} {m : Nat} (h : FieldCode M m) {a e : Limbs} {x y : ZMod m}
    (ha : a.Rep m x) (he : e.Rep m y) : (M.powBySelf a e).Rep m (x ^ y.val) :=
  rep_powBySelf h.valid ha he

/-- `invert` of `scalar.rs` and `field_secp.rs`, given that num-bigint-dig's `mod_inverse` computes
modular inverses. -/
theorem scalar_invert {f : Nat → Nat → Option Nat} (hf : ModInverseSpec f) {a : Limbs}
    {x : ZMod secpP} (ha : a.Rep secpP x) :
    (x = 0 → paramsP.invert f secpP a = none) ∧
    (x ≠ 0 → ∃ b, paramsP.invert f secpP a = some b ∧ b.Rep secpP x⁻¹) :=
  invert_eq valid_P hf ha

/-- `invert` of `field_secq.rs`: the addition chain computes `x^(q-2) = x⁻¹`. -/
theorem secq_field_invert {a : Limbs} {x : ZMod secpN} (ha : a.Rep secpN x) :
    (x = 0 → paramsQ.invertQ a = none) ∧
    (x ≠ 0 → ∃ b, paramsQ.invertQ a = some b ∧ b.Rep secpN x⁻¹) := invertQ_eq ha

/-- A correct `mod_inverse`. -/
def modInverseRef (a n : Nat) : Option Nat :=
  if Nat.Coprime a n then some ((a : ZMod n)⁻¹.val) else none

theorem modInverseRef_spec : ModInverseSpec modInverseRef := by
  intro a n hn
  haveI : NeZero n := ⟨by omega⟩
  refine ⟨fun hc => ⟨_, by rw [modInverseRef, if_pos hc], ZMod.val_lt _, ?_⟩,
    fun hc => by rw [modInverseRef, if_neg hc]⟩
  have h1 : (a : ZMod n) * (a : ZMod n)⁻¹ = 1 := ZMod.coe_mul_inv_eq_one a hc
  have h2 : ((a * (a : ZMod n)⁻¹.val : ℕ) : ZMod n) = ((1 : ℕ) : ZMod n) := by
    rw [Nat.cast_mul, ZMod.natCast_zmod_val, h1, Nat.cast_one]
  have h3 := (ZMod.natCast_eq_natCast_iff' _ _ _).mp h2
  rwa [Nat.mod_eq_of_lt hn] at h3

/-- `batch_invert` on a list of reduced scalars of any length: it panics exactly when an entry is
zero; otherwise it replaces every entry by its inverse and returns the product of the inverses.
In both cases the outcome is that of the abstract `batchInvert` used by the protocol model. -/
theorem batch_invert_correct {f : Nat → Nat → Option Nat} (hf : ModInverseSpec f)
    {l : List Limbs} {xs : List (ZMod secpP)} (hl : List.Forall₂ (Limbs.Rep secpP) l xs) :
    ((0 : ZMod secpP) ∈ xs → paramsP.batchInvertL f secpP l = .error .panic ∧
      batchInvert xs = .error .panic) ∧
    ((0 : ZMod secpP) ∉ xs → ∃ l' b, paramsP.batchInvertL f secpP l = .ok (l', b) ∧
      List.Forall₂ (Limbs.Rep secpP) l' (xs.map (·⁻¹)) ∧ b.Rep secpP (xs.map (·⁻¹)).prod ∧
      batchInvert xs = .ok (xs.map (·⁻¹), (xs.map (·⁻¹)).prod)) := by
  have hM := valid_P
  obtain ⟨h1, -⟩ := biForward_spec hM l xs paramsP.one 1 hl (rep_one hM)
  obtain ⟨i1, i2⟩ := invert_eq hM hf h1
  have hprod : (xs.map (·⁻¹)).prod = (1 * xs.prod)⁻¹ := by
    rw [one_mul]
    induction xs generalizing l with
    | nil => simp
    | cons x xs ih => 
      rcases hl with _ | ⟨g1, g2⟩
      simp only [List.map_cons, List.prod_cons, mul_inv]
      rw [ih g2 (biForward_spec hM _ xs paramsP.one 1 g2 (rep_one hM)).1
        (invert_eq hM hf (biForward_spec hM _ xs paramsP.one 1 g2 (rep_one hM)).1).1
        (invert_eq hM hf (biForward_spec hM _ xs paramsP.one 1 g2 (rep_one hM)).1).2]
  refine ⟨fun h0 => ⟨?_, by rw [batchInvert, if_pos h0]⟩, fun h0 => ?_⟩
  · have : (1 : ZMod secpP) * xs.prod = 0 := by rw [one_mul]; exact List.prod_eq_zero h0
    rw [batchInvertL]
    simp only [i1 this]
  · have hne : (1 : ZMod secpP) * xs.prod ≠ 0 := by
      rw [one_mul]; exact List.prod_ne_zero h0
    obtain ⟨b, hb, hbr⟩ := i2 hne
    have hback := biBackward_spec hM l xs paramsP.one b 1 hl (rep_one hM) one_ne_zero
      (fun x hx h => h0 (h ▸ hx)) hbr
    refine ⟨_, b, ?_, hback.1, by rw [hprod]; exact hbr, ?_⟩
    · rw [batchInvertL]
      simp only [hb]
    · rw [batchInvert, if_neg h0, hprod, one_mul]

/-- Non-vacuity: three entries, with and without a zero. -/
example : ∃ l' b, paramsP.batchInvertL modInverseRef secpP
    [paramsP.one, paramsP.fromU64 2, paramsP.neg paramsP.one] = .ok (l', b) := by
  obtain ⟨-, h⟩ := batch_invert_correct modInverseRef_spec
    (l := [paramsP.one, paramsP.fromU64 2, paramsP.neg paramsP.one])
    (xs := [1, (2 : ℕ), -1])
    (.cons (rep_one valid_P) (.cons (rep_fromU64 valid_P 2)
      (.cons (rep_neg valid_P (rep_one valid_P)) .nil)))
  obtain ⟨l', b, hb, -⟩ := h (by decide +kernel)
  exact ⟨l', b, hb⟩

/-! ### C06: serialisation of `Scalar` -/

/-- Deserialising a serialised `Scalar` gives the same `Scalar`. -/
theorem scalar_serde_roundtrip {a : Limbs} {x : ZMod secpP} (ha : a.Rep secpP x) :
    paramsP.visitSeq (paramsP.serScalar a) = .ok a := by
  have hM := valid_P
  obtain ⟨h1, h2, -⟩ := scalar_to_bytes ha
  have hr := rep_fromRaw hM (u64FromLE (slice8 (paramsP.toBytes a) 0))
    (u64FromLE (slice8 (paramsP.toBytes a) 8)) (u64FromLE (slice8 (paramsP.toBytes a) 16))
    (u64FromLE (slice8 (paramsP.toBytes a) 24))
  rw [limbs_of_bytes (by omega), List.take_of_length_le (by omega), h2,
    ZMod.natCast_zmod_val] at hr
  rw [visitSeq, serScalar, if_neg (by omega), rep_inj hM hr ha]

/-- What deserialisation computes on any 32 bytes: the residue of the little-endian integer, with no
check that it is below `p`. -/
theorem scalar_deserialize {bs : List UInt8} (hl : bs.length = 32) :
    ∃ a, paramsP.visitSeq bs = .ok a ∧ a.Rep secpP (leNat bs : ZMod secpP) := by
  have hr := rep_fromRaw valid_P (u64FromLE (slice8 bs 0)) (u64FromLE (slice8 bs 8))
    (u64FromLE (slice8 bs 16)) (u64FromLE (slice8 bs 24))
  rw [limbs_of_bytes (by omega), List.take_of_length_le (by omega)] at hr
  exact ⟨_, by rw [visitSeq, if_neg (by omega)], hr⟩

/-- What deserialisation does on a sequence of any length: fewer than 32 bytes panic, otherwise the
first 32 bytes are read. -/
theorem scalar_deserialize_total (bs : List UInt8) :
    (bs.length < 32 → paramsP.visitSeq bs = .error .panic) ∧
    (32 ≤ bs.length → ∃ a, paramsP.visitSeq bs = .ok a ∧
      a.Rep secpP (leNat (bs.take 32) : ZMod secpP)) := by
  refine ⟨fun h => by rw [visitSeq, if_pos h], fun h => ?_⟩
  have hr := rep_fromRaw valid_P (u64FromLE (slice8 bs 0)) (u64FromLE (slice8 bs 8))
    (u64FromLE (slice8 bs 16)) (u64FromLE (slice8 bs 24))
  rw [limbs_of_bytes (by omega)] at hr
  exact ⟨_, by rw [visitSeq, if_neg (by omega)], hr⟩

example : paramsP.visitSeq (List.replicate 31 1) = .error .panic :=
  (scalar_deserialize_total _).1 (by simp)

/-- Two 32-byte encodings deserialise to the same `Scalar` exactly when their integers are congruent
modulo `p`.  In particular deserialisation is injective on canonical encodings. -/
theorem scalar_deserialize_collision {bs cs : List UInt8} (hb : bs.length = 32)
    (hc : cs.length = 32) :
    paramsP.visitSeq bs = paramsP.visitSeq cs ↔ leNat bs % secpP = leNat cs % secpP := by
  obtain ⟨a, ha, har⟩ := scalar_deserialize hb
  obtain ⟨b, hb', hbr⟩ := scalar_deserialize hc
  rw [ha, hb', Except.ok.injEq, rep_iff_eq valid_P har hbr, ZMod.natCast_eq_natCast_iff']

/-- C06, the part that holds: round trip, and injectivity on encodings of integers below `p`.
Missing: injectivity on all 32-byte strings, which is false (`scalar_deserialize_not_injective`). -/
theorem scalar_serde_partial :
    (∀ (a : Limbs) (x : ZMod secpP), a.Rep secpP x →
      paramsP.visitSeq (paramsP.serScalar a) = .ok a) ∧
    (∀ bs cs : List UInt8, bs.length = 32 → cs.length = 32 → leNat bs < secpP →
      leNat cs < secpP → paramsP.visitSeq bs = paramsP.visitSeq cs → bs = cs) := by
  refine ⟨fun a x ha => scalar_serde_roundtrip ha, fun bs cs hb hc h1 h2 h => ?_⟩
  have := (scalar_deserialize_collision hb hc).mp h
  rw [Nat.mod_eq_of_lt h1, Nat.mod_eq_of_lt h2] at this
  exact leNat_inj (hb.trans hc.symm) this

/-- C06 is false in general: every residue below `2^256 - p = 2^32 + 977` has a second 32-byte
encoding that deserialises to the same `Scalar`. -/
theorem scalar_deserialize_not_injective (v : Nat) (hv : v < 2 ^ 256 - secpP) :
    leBytes 32 v ≠ leBytes 32 (v + secpP) ∧
    paramsP.visitSeq (leBytes 32 v) = paramsP.visitSeq (leBytes 32 (v + secpP)) := by
  have e1 : v < 256 ^ 32 := by norm_num [secpP] at hv ⊢; omega
  have e2 : v + secpP < 256 ^ 32 := by norm_num [secpP] at hv ⊢; omega
  constructor
  · intro h
    have := congrArg leNat h
    rw [leNat_leBytes, leNat_leBytes, Nat.mod_eq_of_lt e1, Nat.mod_eq_of_lt e2] at this
    norm_num [secpP] at this
  · rw [scalar_deserialize_collision (leBytes_length _ _) (leBytes_length _ _), leNat_leBytes,
      leNat_leBytes, Nat.mod_eq_of_lt e1, Nat.mod_eq_of_lt e2, Nat.add_mod_right]

/-! ### C07: serialisation of `FieldElement` -/

/-- C07 is false: deserialising the serialisation of a `FieldElement` multiplies it by `2^256`, so
only zero survives.  (The serialiser writes the raw Montgomery limbs; the deserialiser applies
`from_raw`.  It also writes 40 bytes of which 32 are read.) -/
theorem field_serde_broken {M : MParams} {m : Nat} (h : FieldCode M m) {a : Limbs} {x : ZMod m}
    (ha : a.Rep m x) :
    (serField a).length = 40 ∧
    ∃ b, M.visitSeq (serField a) = .ok b ∧ b.Rep m (x * 2 ^ 256) ∧ (b = a ↔ x = 0) := by
  have hM := h.valid
  haveI := h.prime
  have hlen : (serField a).length = 40 := by simp [serField, u64ToLE, leBytes_length]
  refine ⟨hlen, ?_⟩
  have hs : leNat ((serField a).take 32) = a.val := by
    have e4 := top_zero hM ha.1
    have e : (serField a).take 32 = u64ToLE a.l0 ++ u64ToLE a.l1 ++ u64ToLE a.l2 ++ u64ToLE a.l3 := by
      rw [serField, List.take_append_of_le_length (by simp [u64ToLE, leBytes_length]),
        List.take_of_length_le (by simp [u64ToLE, leBytes_length])]
    rw [e, leNat_append, leNat_append, leNat_append]
    simp only [u64ToLE, leNat_leBytes, List.length_append, leBytes_length]
    have l (v : UInt64) : v.toNat % 256 ^ 8 = v.toNat := Nat.mod_eq_of_lt (by
      have := v.toNat_lt; norm_num; omega)
    rw [l, l, l, l]
    have : a.l4.toNat = 0 := by rw [e4]; rfl
    simp only [Limbs.val, this]
    norm_num
  have hr := rep_fromRaw hM (u64FromLE (slice8 (serField a) 0)) (u64FromLE (slice8 (serField a) 8))
    (u64FromLE (slice8 (serField a) 16)) (u64FromLE (slice8 (serField a) 24))
  rw [limbs_of_bytes (by omega), hs, ha.2] at hr
  refine ⟨_, by rw [visitSeq, if_neg (by omega)], hr, ?_⟩
  rw [rep_iff_eq hM hr ha]
  constructor
  · intro hx
    have h1 : x * (2 ^ 256 - 1) = 0 := by linear_combination hx
    rcases mul_eq_zero.mp h1 with h0 | h0
    · exact h0
    · exfalso
      have h2 : ((2 ^ 256 - 1 : ℕ) : ZMod m) = 0 := by
        rw [Nat.cast_sub (by norm_num), Nat.cast_pow]
        exact_mod_cast h0
      rw [ZMod.natCast_eq_zero_iff] at h2
      cases h
      · exact absurd (Nat.mod_eq_zero_of_dvd h2) (by decide +kernel)
      · exact absurd (Nat.mod_eq_zero_of_dvd h2) (by decide +kernel)
  · rintro rfl; ring

/-- Non-vacuity: the element one does not survive a round trip in either field. -/
example : paramsP.visitSeq (serField paramsP.one) ≠ .ok paramsP.one ∧
    paramsQ.visitSeq (serField paramsQ.one) ≠ .ok paramsQ.one := by
  constructor
  · obtain ⟨-, b, hb, -, hi⟩ := field_serde_broken .secp (rep_one valid_P)
    rw [hb]
    exact fun h => one_ne_zero (hi.mp (Except.ok.inj h))
  · obtain ⟨-, b, hb, -, hi⟩ := field_serde_broken .secq (rep_one valid_Q)
    rw [hb]
    exact fun h => one_ne_zero (hi.mp (Except.ok.inj h))

/-! ### C08: square roots -/

/-- C08, the part that holds: `sqrt` of a square is one of its roots.
Missing: that a root is only returned for squares, which is false (`secp_sqrt_of_nonsquare`). -/
theorem secp_sqrt_partial {a : Limbs} {x : ZMod secpP} (ha : a.Rep secpP x) (hx : IsSquare x) :
    ∃ b r, paramsP.sqrtP a = some b ∧ b.Rep secpP r ∧ r ^ 2 = x := by
  obtain ⟨b, hb, hr⟩ := sqrtP_eq ha
  refine ⟨b, _, hb, hr, ?_⟩
  obtain ⟨s, rfl⟩ := hx
  rw [← pow_two, ← pow_mul, ← pow_mul,
    show 2 * ((secpP + 1) / 4 * 2) = secpP + 1 by decide +kernel, pow_succ, ZMod.pow_card, pow_two]

/-- C08 is false: for every non-square, `sqrt` returns `Some` of a root of `-x`. -/
theorem secp_sqrt_of_nonsquare {a : Limbs} {x : ZMod secpP} (ha : a.Rep secpP x)
    (hx : ¬ IsSquare x) :
    ∃ b r, paramsP.sqrtP a = some b ∧ b.Rep secpP r ∧ r ^ 2 = -x ∧ r ^ 2 ≠ x := by
  obtain ⟨b, hb, hr⟩ := sqrtP_eq ha
  have h0 : x ≠ 0 := by rintro rfl; exact hx ⟨0, by ring⟩
  have h1 : x ^ (secpP / 2) = -1 := by
    rcases ZMod.pow_div_two_eq_neg_one_or_one secpP h0 with h | h
    · exact absurd ((ZMod.euler_criterion secpP h0).mpr h) hx
    · exact h
  have h2 : (x ^ ((secpP + 1) / 4)) ^ 2 = -x := by
    rw [← pow_mul, show (secpP + 1) / 4 * 2 = secpP / 2 + 1 by decide +kernel, pow_succ, h1]
    ring
  refine ⟨b, _, hb, hr, h2, fun h => h0 ?_⟩
  rw [h2] at h
  have h3 : (2 : ZMod secpP) * x = 0 := by linear_combination -h
  rcases mul_eq_zero.mp h3 with h4 | h4
  · exfalso
    have : ((2 : ℕ) : ZMod secpP) = 0 := by exact_mod_cast h4
    rw [ZMod.natCast_eq_zero_iff] at this
    exact absurd (Nat.mod_eq_zero_of_dvd this) (by decide +kernel)
  · exact h4

/-- Non-vacuity: `4` is a square; `-11` is not. -/
example : ¬ IsSquare (-11 : ZMod secpP) := by
  have hv := sqrtConstsP_valid.nonsq
  rw [ZMod.euler_criterion secpP (by rw [neg11]; decide +kernel)]
  rw [show secpP / 2 = (secpP - 1) / 2 by decide +kernel, hv]
  decide +kernel

/-! ### C09: `sqrt_ratio` -/

/-- C09 for both fields and every `u ≠ 0`: the boolean says whether `u / v` is a square and the
second component is the root of `u / v`, resp. of `Z u / v`.
Missing: `u = 0`, where the boolean is wrong (`sqrt_ratio_zero`). -/
theorem sqrt_ratio_partial {lu lv : Limbs} {u v : ZMod secpN} (hu : lu.Rep secpN u)
    (hv : lv.Rep secpN v) (hu0 : u ≠ 0) (hv0 : v ≠ 0) :
    ∃ y, (paramsQ.sqrtRatio sqrtConstsQ lu lv).2.Rep secpN y ∧
      ((paramsQ.sqrtRatio sqrtConstsQ lu lv).1 = true ↔ IsSquare (u / v)) ∧
      ((paramsQ.sqrtRatio sqrtConstsQ lu lv).1 = true → y ^ 2 * v = u) ∧
      ((paramsQ.sqrtRatio sqrtConstsQ lu lv).1 = false → y ^ 2 * v = -14 * u) := by
  obtain ⟨y, hy, ht, hf⟩ := sqrtRatio_spec valid_Q sqrtConstsQ_valid hu hv hv0
  refine ⟨y, hy, ⟨fun h => (ht h).2.1, fun h => ?_⟩, fun h => (ht h).2.2, fun h => (hf h).2⟩
  by_contra hc
  exact (hf (by simpa using hc)).1 hu0 h

/-- The same for `field_secp.rs`, with `Z = -11`. -/
theorem sqrt_ratio_secp_partial {lu lv : Limbs} {u v : ZMod secpP} (hu : lu.Rep secpP u)
    (hv : lv.Rep secpP v) (hu0 : u ≠ 0) (hv0 : v ≠ 0) :
    ∃ y, (paramsP.sqrtRatio sqrtConstsP lu lv).2.Rep secpP y ∧
      ((paramsP.sqrtRatio sqrtConstsP lu lv).1 = true ↔ IsSquare (u / v)) ∧
      ((paramsP.sqrtRatio sqrtConstsP lu lv).1 = true → y ^ 2 * v = u) ∧
      ((paramsP.sqrtRatio sqrtConstsP lu lv).1 = false → y ^ 2 * v = -11 * u) := by
  obtain ⟨y, hy, ht, hf⟩ := sqrtRatio_spec valid_P sqrtConstsP_valid hu hv hv0
  refine ⟨y, hy, ⟨fun h => (ht h).2.1, fun h => ?_⟩, fun h => (ht h).2.2, fun h => (hf h).2⟩
  by_contra hc
  exact (hf (by simpa using hc)).1 hu0 h

/-- C09 is false at `u = 0`: `0 / v = 0` is a square but `sqrt_ratio(0, v)` returns `(false, 0)`.
The root is still right. -/
theorem sqrt_ratio_zero {lu lv : Limbs} {v : ZMod secpN} (hu : lu.Rep secpN 0)
    (hv : lv.Rep secpN v) (hv0 : v ≠ 0) :
    (paramsQ.sqrtRatio sqrtConstsQ lu lv).1 = false ∧
    (paramsQ.sqrtRatio sqrtConstsQ lu lv).2.Rep secpN 0 := by
  obtain ⟨y, hy, ht, hf⟩ := sqrtRatio_spec valid_Q sqrtConstsQ_valid hu hv hv0
  have h1 : (paramsQ.sqrtRatio sqrtConstsQ lu lv).1 = false := by
    by_contra hc
    exact (ht (by simpa using hc)).1 rfl
  refine ⟨h1, ?_⟩
  have h2 := (hf h1).2
  rw [mul_zero] at h2
  rcases mul_eq_zero.mp h2 with h3 | h3
  · rw [pow_eq_zero_iff (two_ne_zero)] at h3
    rwa [h3] at hy
  · exact absurd h3 hv0

/-- Non-vacuity: `u = 4, v = 1`. -/
example : (paramsQ.sqrtRatio sqrtConstsQ (paramsQ.fromU64 4) paramsQ.one).1 = true := by
  obtain ⟨y, -, h, -⟩ := sqrt_ratio_partial (rep_fromU64 valid_Q 4) (rep_one valid_Q)
    (by decide +kernel) one_ne_zero
  rw [h]
  exact ⟨2, by rw [div_one]; decide +kernel⟩

end Spartan
