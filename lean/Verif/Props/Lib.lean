import Verif.Model.Lib
import Verif.Spec.Ecdsa
import Verif.Props.Convert

/-!
Properties C55, C63, C64 and C65: the TypeScript library.
-/

set_option exponentiation.threshold 2000

namespace Spartan
open Spec MParams Lib

/-! ### C64 -/

theorem beBytes_length (size n : Nat) : (beBytes size n).length = size := by
  simp [beBytes, leBytes_length]

theorem bigIntToBytes_eq {n size : Nat} (hs : 1 ≤ size) (h : n < 256 ^ size) :
    bigIntToBytes n size = beBytes size n := by
  have h1 : (Nat.digits 16 n).length ≤ size * 2 := by
    rw [Nat.digits_length_le_iff (by norm_num)]
    rw [mul_comm, pow_mul]
    exact h
  have h2 : max (size * 2) (hexLen n) = size * 2 := by unfold hexLen; omega
  unfold bigIntToBytes
  simp only [h2]
  rw [if_pos (by omega), Nat.mul_div_cancel _ (by norm_num)]

/-- C64: the byte conversions are inverse to each other on values that fit. -/
theorem bigint_bytes_roundtrip {n size : Nat} (hs : 1 ≤ size) (h : n < 256 ^ size) :
    (bigIntToBytes n size).length = size ∧ bytesToBigInt (bigIntToBytes n size) = some n ∧
      (bigIntToLeBytes n size) = leBytes size n ∧ bytesLeToBigInt (bigIntToLeBytes n size) = some n := by
  have e := bigIntToBytes_eq hs h
  have hne : beBytes size n ≠ [] := by
    intro hc
    have := beBytes_length size n
    rw [hc] at this
    simp at this; omega
  have hv : leNat (beBytes size n).reverse = n := by
    rw [beBytes, List.reverse_reverse, leNat_leBytes, Nat.mod_eq_of_lt h]
  have h2 : bytesToBigInt (bigIntToBytes n size) = some n := by
    rw [e, bytesToBigInt, if_neg hne, hv]
  refine ⟨by rw [e, beBytes_length], h2, ?_, ?_⟩
  · rw [bigIntToLeBytes, e, beBytes, List.reverse_reverse]
  · rw [bytesLeToBigInt, bigIntToLeBytes, List.reverse_reverse, h2]

/-- The other direction: nonempty bytes are recovered. -/
theorem bytes_bigint_roundtrip {bs : List UInt8} (h : bs ≠ []) :
    ∃ n, bytesToBigInt bs = some n ∧ bigIntToBytes n bs.length = bs := by
  refine ⟨_, if_neg h, ?_⟩
  have hl := leNat_lt bs.reverse
  rw [List.length_reverse] at hl
  rw [bigIntToBytes_eq (List.length_pos_iff.mpr h) hl, beBytes]
  have := leBytes_leNat bs.reverse
  rw [List.length_reverse] at this
  rw [this, List.reverse_reverse]

theorem setAt_step {pre src : List UInt8} {off k m : Nat} (ho : pre.length = off)
    (hk : src.length = k) :
    setAt (pre ++ List.replicate (k + m) 0) src off = some ((pre ++ src) ++ List.replicate m 0) := by
  unfold setAt
  rw [if_pos (by simp; omega)]
  congr 1
  rw [List.take_left' ho, List.drop_append, List.drop_of_length_le (by omega), List.nil_append, hk, ho,
    Nat.add_sub_cancel_left, List.drop_replicate, Nat.add_sub_cancel_left]

/-- The fields fit in their slots. -/
def PubFits (c : CircuitPubInput) : Prop :=
  c.merkleRoot < 2 ^ 256 ∧ c.Tx < 2 ^ 256 ∧ c.Ty < 2 ^ 256 ∧ c.Ux < 2 ^ 256 ∧ c.Uy < 2 ^ 256

/-- The layout of the serialized circuit inputs: five big-endian numbers. -/
theorem circuit_serialize_eq {c : CircuitPubInput} (h : PubFits c) :
    c.serialize = some (beBytes 32 c.merkleRoot ++ beBytes 32 c.Tx ++ beBytes 32 c.Ty ++
      beBytes 32 c.Ux ++ beBytes 32 c.Uy) := by
  obtain ⟨h0, h1, h2, h3, h4⟩ := h
  have hb : ∀ n, n < 2 ^ 256 → bigIntToBytes n 32 = beBytes 32 n := fun n hn =>
    bigIntToBytes_eq (by norm_num) (by rw [show (256 : ℕ) ^ 32 = 2 ^ 256 by norm_num]; exact hn)
  unfold CircuitPubInput.serialize
  rw [hb _ h0, hb _ h1, hb _ h2, hb _ h3, hb _ h4]
  have s0 := setAt_step (pre := []) (src := beBytes 32 c.merkleRoot) (off := 0) (k := 32) (m := 128)
    rfl (beBytes_length _ _)
  have s1 := setAt_step (pre := [] ++ beBytes 32 c.merkleRoot) (src := beBytes 32 c.Tx) (off := 32)
    (k := 32) (m := 96) (by simp [beBytes_length]) (beBytes_length _ _)
  have s2 := setAt_step (pre := [] ++ beBytes 32 c.merkleRoot ++ beBytes 32 c.Tx)
    (src := beBytes 32 c.Ty) (off := 64) (k := 32) (m := 64) (by simp [beBytes_length])
    (beBytes_length _ _)
  have s3 := setAt_step (pre := [] ++ beBytes 32 c.merkleRoot ++ beBytes 32 c.Tx ++ beBytes 32 c.Ty)
    (src := beBytes 32 c.Ux) (off := 96) (k := 32) (m := 32) (by simp [beBytes_length])
    (beBytes_length _ _)
  have s4 := setAt_step (pre := [] ++ beBytes 32 c.merkleRoot ++ beBytes 32 c.Tx ++ beBytes 32 c.Ty ++
    beBytes 32 c.Ux) (src := beBytes 32 c.Uy) (off := 128) (k := 32) (m := 0)
    (by simp [beBytes_length]) (beBytes_length _ _)
  simp only [List.nil_append, Nat.reduceAdd, List.replicate_zero, List.append_nil] at s0 s1 s2 s3 s4
  simp only [Nat.reduceMul, Option.bind_eq_bind, s0, s1, s2, s3, s4, Option.bind_some]

theorem slice_mid {a b c : List UInt8} {i j : Nat} (hi : a.length = i) (hj : a.length + b.length = j) :
    slice (a ++ b ++ c) i j = b := by
  unfold slice
  rw [List.append_assoc, List.drop_left' hi, List.take_left' (by omega)]

theorem bytesToBigInt_be {n : Nat} (h : n < 2 ^ 256) : bytesToBigInt (beBytes 32 n) = some n := by
  have h' : n < 256 ^ 32 := by rw [show (256 : ℕ) ^ 32 = 2 ^ 256 by norm_num]; exact h
  have := (bigint_bytes_roundtrip (size := 32) (by norm_num) h').2.1
  rwa [bigIntToBytes_eq (by norm_num) h'] at this

theorem five_slices {b0 b1 b2 b3 b4 : List UInt8} (l0 : b0.length = 32) (l1 : b1.length = 32)
    (l2 : b2.length = 32) (l3 : b3.length = 32) (l4 : b4.length = 32) :
    slice (b0 ++ b1 ++ b2 ++ b3 ++ b4) 0 32 = b0 ∧ slice (b0 ++ b1 ++ b2 ++ b3 ++ b4) 32 64 = b1 ∧
    slice (b0 ++ b1 ++ b2 ++ b3 ++ b4) 64 96 = b2 ∧ slice (b0 ++ b1 ++ b2 ++ b3 ++ b4) 96 128 = b3 ∧
    slice (b0 ++ b1 ++ b2 ++ b3 ++ b4) 128 160 = b4 := by
  have s0 : slice (b0 ++ b1 ++ b2 ++ b3 ++ b4) 0 32 = b0 := by
    have := slice_mid (a := []) (b := b0) (c := b1 ++ b2 ++ b3 ++ b4) (i := 0) (j := 32) rfl (by simp [l0])
    simpa [List.append_assoc] using this
  have s1 : slice (b0 ++ b1 ++ b2 ++ b3 ++ b4) 32 64 = b1 := by
    have := slice_mid (a := b0) (b := b1) (c := b2 ++ b3 ++ b4) (i := 32) (j := 64) l0 (by simp [l0, l1])
    simpa [List.append_assoc] using this
  have s2 : slice (b0 ++ b1 ++ b2 ++ b3 ++ b4) 64 96 = b2 := by
    have := slice_mid (a := b0 ++ b1) (b := b2) (c := b3 ++ b4) (i := 64) (j := 96) (by simp [l0, l1])
      (by simp [l0, l1, l2])
    simpa [List.append_assoc] using this
  have s3 : slice (b0 ++ b1 ++ b2 ++ b3 ++ b4) 96 128 = b3 := by
    have := slice_mid (a := b0 ++ b1 ++ b2) (b := b3) (c := b4) (i := 96) (j := 128)
      (by simp [l0, l1, l2]) (by simp [l0, l1, l2, l3])
    simpa [List.append_assoc] using this
  have s4 : slice (b0 ++ b1 ++ b2 ++ b3 ++ b4) 128 160 = b4 := by
    have := slice_mid (a := b0 ++ b1 ++ b2 ++ b3) (b := b4) (c := []) (i := 128) (j := 160)
      (by simp [l0, l1, l2, l3]) (by simp [l0, l1, l2, l3, l4])
    simpa [List.append_assoc] using this
  exact ⟨s0, s1, s2, s3, s4⟩

/-- C64 for the circuit inputs. -/
theorem circuit_pub_input_roundtrip {c : CircuitPubInput} (h : PubFits c) :
    ∃ bs, c.serialize = some bs ∧ bs.length = 160 ∧ CircuitPubInput.deserialize bs = some c := by
  refine ⟨_, circuit_serialize_eq h, by simp [beBytes_length], ?_⟩
  obtain ⟨h0, h1, h2, h3, h4⟩ := h
  obtain ⟨b0, e0⟩ : ∃ b, b = beBytes 32 c.merkleRoot := ⟨_, rfl⟩
  obtain ⟨b1, e1⟩ : ∃ b, b = beBytes 32 c.Tx := ⟨_, rfl⟩
  obtain ⟨b2, e2⟩ : ∃ b, b = beBytes 32 c.Ty := ⟨_, rfl⟩
  obtain ⟨b3, e3⟩ : ∃ b, b = beBytes 32 c.Ux := ⟨_, rfl⟩
  obtain ⟨b4, e4⟩ : ∃ b, b = beBytes 32 c.Uy := ⟨_, rfl⟩
  have l0 : b0.length = 32 := by rw [e0, beBytes_length]
  have l1 : b1.length = 32 := by rw [e1, beBytes_length]
  have l2 : b2.length = 32 := by rw [e2, beBytes_length]
  have l3 : b3.length = 32 := by rw [e3, beBytes_length]
  have l4 : b4.length = 32 := by rw [e4, beBytes_length]
  rw [← e0, ← e1, ← e2, ← e3, ← e4]
  obtain ⟨s0, s1, s2, s3, s4⟩ := five_slices l0 l1 l2 l3 l4
  unfold CircuitPubInput.deserialize
  rw [s0, s1, s2, s3, s4, e0, e1, e2, e3, e4, bytesToBigInt_be h0, bytesToBigInt_be h1,
    bytesToBigInt_be h2, bytesToBigInt_be h3, bytesToBigInt_be h4]
  rfl

/-- C64: the public input of a proof survives serialization, for every message hash. -/
theorem pub_input_roundtrip {p : PublicInput} (hr : p.r < 2 ^ 256) (hv : p.rV < 256)
    (hc : PubFits p.circuitPubInput) :
    ∃ bs, p.serialize = some bs ∧ bs.length = 193 + p.msgHash.length ∧
      PublicInput.deserialize bs = some p := by
  obtain ⟨c, ec, lc, dc⟩ := circuit_pub_input_roundtrip hc
  have hr' : p.r < 256 ^ 32 := by rw [show (256 : ℕ) ^ 32 = 2 ^ 256 by norm_num]; exact hr
  have er := bigIntToBytes_eq (size := 32) (by norm_num) hr'
  have ev := bigIntToBytes_eq (size := 1) (n := p.rV) (by norm_num) (by simpa using hv)
  have dr := (bigint_bytes_roundtrip (size := 32) (by norm_num) hr').2.1
  have dv := (bigint_bytes_roundtrip (size := 1) (n := p.rV) (by norm_num) (by simpa using hv)).2.1
  rw [er] at dr
  rw [ev] at dv
  obtain ⟨br, hbr⟩ : ∃ b, b = beBytes 32 p.r := ⟨_, rfl⟩
  obtain ⟨bv, hbv⟩ : ∃ b, b = beBytes 1 p.rV := ⟨_, rfl⟩
  have lr : br.length = 32 := by rw [hbr, beBytes_length]
  have lv : bv.length = 1 := by rw [hbv, beBytes_length]
  have hs : p.serialize = some (br ++ bv ++ c ++ p.msgHash) := by
    unfold PublicInput.serialize
    rw [ec, er, ev, ← hbr, ← hbv]
    have s0 := setAt_step (pre := []) (src := br) (off := 0) (k := 32)
      (m := 1 + (160 + p.msgHash.length)) rfl lr
    have s1 := setAt_step (pre := [] ++ br) (src := bv) (off := 32) (k := 1)
      (m := 160 + p.msgHash.length) (by simp [lr]) lv
    have s2 := setAt_step (pre := [] ++ br ++ bv) (src := c) (off := 33) (k := 160)
      (m := p.msgHash.length) (by simp [lr, lv]) lc
    have s3 := setAt_step (pre := [] ++ br ++ bv ++ c) (src := p.msgHash) (off := 193)
      (k := p.msgHash.length) (m := 0) (by simp [lr, lv, lc]) rfl
    simp only [List.nil_append, List.replicate_zero, List.append_nil, Nat.add_zero] at s0 s1 s2 s3
    have ht : 32 + 1 + p.msgHash.length + c.length = 32 + (1 + (160 + p.msgHash.length)) := by
      rw [lc]; omega
    simp only [ht, Option.bind_eq_bind, Option.bind_some, s0, s1, s2]
    rw [show 33 + c.length = 193 by rw [lc], s3]
  refine ⟨_, hs, by simp [lr, lv, lc]; omega, ?_⟩
  have g0 : slice (br ++ bv ++ c ++ p.msgHash) 0 32 = br := by
    have := slice_mid (a := []) (b := br) (c := bv ++ c ++ p.msgHash) (i := 0) (j := 32) rfl (by simp [lr])
    simpa [List.append_assoc] using this
  have g1 : slice (br ++ bv ++ c ++ p.msgHash) 32 33 = bv := by
    have := slice_mid (a := br) (b := bv) (c := c ++ p.msgHash) (i := 32) (j := 33) lr (by simp [lr, lv])
    simpa [List.append_assoc] using this
  have g2 : slice (br ++ bv ++ c ++ p.msgHash) 33 193 = c := by
    have := slice_mid (a := br ++ bv) (b := c) (c := p.msgHash) (i := 33) (j := 193) (by simp [lr, lv])
      (by simp [lr, lv, lc])
    simpa [List.append_assoc] using this
  have g3 : (br ++ bv ++ c ++ p.msgHash).drop 193 = p.msgHash :=
    List.drop_left' (by simp [lr, lv, lc])
  unfold PublicInput.deserialize
  rw [g0, g1, g2, g3, hbr, hbv, dr, dv, dc]
  rfl

/-- The bounds are needed: a value that does not fit is silently replaced by another one (here
`2^256` by `2^252`). -/
theorem oversized_value_changes : bigIntToBytes (2 ^ 256) 32 = bigIntToBytes (2 ^ 252) 32 := by
  decide +kernel

/-- Non-vacuity of the round trip. -/
example : ∃ bs, (⟨secpP - 1, 28, [1, 2, 3], ⟨1, 2, 3, 4, 2 ^ 256 - 1⟩⟩ : PublicInput).serialize = some bs ∧
    bs.length = 196 ∧ PublicInput.deserialize bs = some ⟨secpP - 1, 28, [1, 2, 3], ⟨1, 2, 3, 4, 2 ^ 256 - 1⟩⟩ :=
  pub_input_roundtrip (by decide +kernel) (by decide) ⟨by decide +kernel, by decide +kernel,
    by decide +kernel, by decide +kernel, by decide +kernel⟩

/-! ### C63 -/

/-- The chunks the wasm verifier reads from the serialized circuit inputs. -/
theorem pub_input_chunks {c : CircuitPubInput} (h : PubFits c) :
    ∃ bs, c.serialize = some bs ∧ chunks bs 5 =
      [beBytes 32 c.merkleRoot, beBytes 32 c.Tx, beBytes 32 c.Ty, beBytes 32 c.Ux, beBytes 32 c.Uy] := by
  refine ⟨_, circuit_serialize_eq h, ?_⟩
  have l : ∀ n, (beBytes 32 n).length = 32 := beBytes_length 32
  obtain ⟨s0, s1, s2, s3, s4⟩ := five_slices (l c.merkleRoot) (l c.Tx) (l c.Ty) (l c.Ux) (l c.Uy)
  unfold slice at s0 s1 s2 s3 s4
  simp only [Nat.reduceSub] at s0 s1 s2 s3 s4
  simp only [chunks, List.range, List.range.loop, List.map_cons, List.map_nil, Nat.reduceMul,
    s0, s1, s2, s3, s4]

/-- What the wasm verifier decodes for the value `x`: the integer with the bytes of `x` in reverse
order, or nothing (a panic) if that is not below `p`. -/
theorem pub_input_decoded (digest : R1CS (ZMod secpP) → List UInt8) (x : Nat) :
    (secpCodec digest).fromBytes (beBytes 32 x) =
      if swapped x < secpP then some (swapped x : ZMod secpP) else none := by
  have : leNat (beBytes 32 x) = swapped x := rfl
  simp only [secpCodec, beBytes_length, true_and, this]

/-- C63 where it holds: values whose 32-byte encoding reads the same in both directions arrive
unchanged.  Missing: all the others, for which the claim is false (`pub_input_swapped`). -/
theorem pub_input_value_partial (digest : R1CS (ZMod secpP) → List UInt8) {x : Nat} (hx : x < secpP)
    (hpal : beBytes 32 x = leBytes 32 x) :
    (secpCodec digest).fromBytes (beBytes 32 x) = some (x : ZMod secpP) := by
  have hs : swapped x = x := by
    show leNat (beBytes 32 x) = x
    rw [hpal, leNat_leBytes, Nat.mod_eq_of_lt (lt_trans hx (by decide +kernel))]
  rw [pub_input_decoded, hs, if_pos hx]

/-- The claim holds of no other value. -/
theorem pub_input_value_iff (digest : R1CS (ZMod secpP) → List UInt8) {x : Nat} (hx : x < secpP) :
    (secpCodec digest).fromBytes (beBytes 32 x) = some (x : ZMod secpP) ↔
      beBytes 32 x = leBytes 32 x := by
  refine ⟨fun h => ?_, pub_input_value_partial digest hx⟩
  rw [pub_input_decoded] at h
  split_ifs at h with hlt
  have he : swapped x = x := by
    have := congrArg ZMod.val (Option.some.inj h)
    rwa [ZMod.val_natCast, ZMod.val_natCast, Nat.mod_eq_of_lt hlt, Nat.mod_eq_of_lt hx] at this
  apply leNat_inj (by rw [beBytes_length, leBytes_length])
  rw [leNat_leBytes, Nat.mod_eq_of_lt (lt_trans hx (by decide +kernel))]
  exact he

/-- C63 is false: the Merkle root 1 reaches the verifier as `2^248`. -/
theorem pub_input_swapped (digest : R1CS (ZMod secpP) → List UInt8) :
    (secpCodec digest).fromBytes (beBytes 32 1) = some ((2 ^ 248 : ℕ) : ZMod secpP) ∧
    ((2 ^ 248 : ℕ) : ZMod secpP) ≠ ((1 : ℕ) : ZMod secpP) := by
  have hs : swapped 1 = 2 ^ 248 := by decide +kernel
  refine ⟨by rw [pub_input_decoded, hs, if_pos (by decide +kernel)], ?_⟩
  intro h
  have := congrArg ZMod.val h
  rw [ZMod.val_natCast, ZMod.val_natCast, Nat.mod_eq_of_lt (by decide +kernel),
    Nat.mod_eq_of_lt (by decide +kernel)] at this
  exact absurd this (by decide +kernel)

/-! ### C65: the public values of efficient ECDSA -/

open WeierstrassCurve.Affine (Point)

/-- No point of secp256k1 has `y = 0`. -/
theorem secp_y_ne {x y : ZMod secpP} (h : (koblitz (ZMod secpP)).Nonsingular x y) : y ≠ 0 := by
  rintro rfl
  have h2 : (Point.some x 0 h : Secp) + Point.some x 0 h = 0 :=
    Point.add_self_of_Y_eq (by rw [Koblitz.negY, neg_zero])
  have hp := curve_annihilated.2 (Point.some x 0 h)
  have : (2 : ℕ) • (Point.some x 0 h : Secp) = 0 := by rw [two_nsmul]; exact h2
  have h3 : secpN = 2 * (secpN / 2) + 1 := by decide +kernel
  rw [h3, add_nsmul, mul_comm, mul_nsmul', this, nsmul_zero, zero_add, one_nsmul] at hp
  exact Point.some_ne_zero h hp

theorem secp_neg_parity {y : ZMod secpP} (hy : y ≠ 0) : (-y).val % 2 = 1 ↔ ¬ y.val % 2 = 1 := by
  have h1 : (-y).val = secpP - y.val := by
    rw [ZMod.neg_val, if_neg hy]
  have h2 : y.val < secpP := ZMod.val_lt y
  have h3 : secpP % 2 = 1 := by decide +kernel
  omega

/-- Choosing between `y` and `-y` by an abstract parity. -/
theorem select_parity {F : Type} [AddGroup F] (odd : F → Prop) [DecidablePred odd] (want : Prop)
    [Decidable want] (hneg : ∀ y : F, y ≠ 0 → (odd (-y) ↔ ¬ odd y)) {r : F}
    (h0 : (if odd r = want then r else -r) ≠ 0) : odd (if odd r = want then r else -r) ↔ want := by
  by_cases h : odd r = want
  · rw [if_pos h, h]
  · rw [if_neg h] at h0 ⊢
    have h1 := hneg (-r) h0
    rw [neg_neg] at h1
    have h4 : ¬ (odd r ↔ want) := fun hh => h (propext hh)
    tauto

theorem select_parity_eq {F : Type} [AddGroup F] (odd : F → Prop) [DecidablePred odd] (want : Prop)
    [Decidable want] (hneg : ∀ y : F, y ≠ 0 → (odd (-y) ↔ ¬ odd y)) {r y : F} (hy : y ≠ 0)
    (hr : r = y ∨ r = -y) (hw : odd y ↔ want) : (if odd r = want then r else -r) = y := by
  rcases hr with rfl | rfl
  · rw [if_pos (propext hw)]
  · rw [if_neg, neg_neg]
    intro hc
    have h1 := hneg y hy
    have h2 := eq_iff_iff.mp hc
    tauto

/-- The power `(p + 1) / 4` of a square is one of its roots. -/
theorem redSqrt_sq {p : Nat} [Fact p.Prime] (hp : p % 4 = 3) {b : ZMod p} (hb : b ≠ 0) :
    redSqrt p (b ^ 2) = b ∨ redSqrt p (b ^ 2) = -b := by
  have e : 2 * ((p + 1) / 4) = p / 2 + 1 := by omega
  unfold redSqrt
  rw [← pow_mul, e, pow_succ]
  rcases ZMod.pow_div_two_eq_neg_one_or_one p hb with h | h
  · left; rw [h, one_mul]
  · right; rw [h, neg_one_mul]

/-- `pointFromX` finds the point with the given x-coordinate and parity, exactly when there is one. -/
theorem pointFromX_iff {x : Nat} {odd : Bool} {R : Secp} :
    pointFromX x odd = some R ↔ IsLift R x odd := by
  constructor
  · intro h
    unfold pointFromX at h
    obtain ⟨y, hy⟩ : ∃ y, y = redSqrt secpP ((x : ZMod secpP) ^ 3 + 7) := ⟨_, rfl⟩
    simp only [← hy] at h
    by_cases h5 : (if (y.val % 2 = 1) = (odd = true) then y else -y) ^ 2 = (x : ZMod secpP) ^ 3 + 7
    · rw [dif_pos h5] at h
      have hn := Koblitz.secp_nonsingular.mpr h5
      refine ⟨_, hn, (Option.some.inj h).symm, ?_⟩
      exact select_parity (fun z : ZMod secpP => z.val % 2 = 1) (odd = true)
        (fun _ h => secp_neg_parity h) (secp_y_ne hn)
    · rw [dif_neg h5] at h; cases h
  · rintro ⟨b, hn, rfl, hodd⟩
    have hb := secp_y_ne hn
    have hc := Koblitz.secp_nonsingular.mp hn
    have hr := redSqrt_sq (p := secpP) (by decide +kernel) hb
    rw [hc] at hr
    unfold pointFromX
    have hsel : (if ((redSqrt secpP ((x : ZMod secpP) ^ 3 + 7)).val % 2 = 1) = (odd = true) then
        redSqrt secpP ((x : ZMod secpP) ^ 3 + 7) else -redSqrt secpP ((x : ZMod secpP) ^ 3 + 7)) = b :=
      select_parity_eq (fun z : ZMod secpP => z.val % 2 = 1) (odd = true)
        (fun _ h => secp_neg_parity h) hb hr hodd
    simp only [hsel]
    rw [dif_pos hc]

theorem coords_iff {P : Secp} {x y : Nat} : coords P = some (x, y) ↔ HasCoords P x y := by
  cases P with
  | zero =>
    simp only [coords, HasCoords]
    constructor
    · intro h; cases h
    · rintro ⟨a, b, h, hc, -⟩; cases hc
  | some a b h =>
    simp only [coords, HasCoords, Option.some.injEq, Prod.mk.injEq]
    constructor
    · rintro ⟨rfl, rfl⟩; exact ⟨a, b, h, rfl, rfl, rfl⟩
    · rintro ⟨a', b', h', hc, rfl, rfl⟩
      cases hc; exact ⟨rfl, rfl⟩

/-- C65: the check of the public values accepts exactly when `T = r⁻¹ R` and `U = -(r⁻¹ m) G` for the
point `R` with x-coordinate `r` and the parity given by `v`. -/
theorem verify_pub_input_iff {p : PublicInput} :
    verifyEffEcdsaPubInput p = some true ↔
      ∃ R, IsLift R p.r (decide (p.rV % 2 = 0)) ∧
        HasCoords (((p.r : ZMod secpN)⁻¹) • R) p.circuitPubInput.Tx p.circuitPubInput.Ty ∧
        HasCoords ((-((p.r : ZMod secpN)⁻¹ * (leNat p.msgHash.reverse : ZMod secpN))) • basePoint)
          p.circuitPubInput.Ux p.circuitPubInput.Uy := by
  have hT : ∀ R : Secp, ((p.r : ZMod secpN)⁻¹).val • R = ((p.r : ZMod secpN)⁻¹) • R := by
    intro R; rw [← secp_smul_nat, ZMod.natCast_zmod_val]
  have hU : (-((((p.r : ZMod secpN)⁻¹).val * leNat p.msgHash.reverse : ℕ) : ZMod secpN)).val • basePoint =
      (-((p.r : ZMod secpN)⁻¹ * (leNat p.msgHash.reverse : ZMod secpN))) • basePoint := by
    rw [← secp_smul_nat, ZMod.natCast_zmod_val, Nat.cast_mul, ZMod.natCast_zmod_val]
  unfold verifyEffEcdsaPubInput computeEffEcdsaPubInput
  simp only [hT, hU]
  constructor
  · intro h
    cases hR : pointFromX p.r (decide (p.rV % 2 = 0)) with
    | none => rw [hR] at h; cases h
    | some R =>
      rw [hR] at h
      simp only [Option.bind_eq_bind, Option.bind_some] at h
      cases ht : coords (((p.r : ZMod secpN)⁻¹) • R) with
      | none => rw [ht] at h; cases h
      | some t =>
        cases hu : coords ((-((p.r : ZMod secpN)⁻¹ * (leNat p.msgHash.reverse : ZMod secpN))) • basePoint) with
        | none => rw [ht, hu] at h; cases h
        | some u =>
          rw [ht, hu] at h
          simp only [Option.bind_some, pure, Option.some.injEq, Bool.and_eq_true, decide_eq_true_eq] at h
          obtain ⟨⟨⟨e1, e2⟩, e3⟩, e4⟩ := h
          refine ⟨R, pointFromX_iff.mp hR, ?_, ?_⟩
          · rw [← e1, ← e2]; exact coords_iff.mp ht
          · rw [← e3, ← e4]; exact coords_iff.mp hu
  · rintro ⟨R, hR, ht, hu⟩
    rw [pointFromX_iff.mpr hR]
    simp only [Option.bind_eq_bind, Option.bind_some]
    rw [coords_iff.mpr ht, coords_iff.mpr hu]
    simp [pure]

/-- The values read from bytes fit their slots. -/
theorem deserialize_fits {bs : List UInt8} {p : PublicInput} (h : PublicInput.deserialize bs = some p) :
    PubFits p.circuitPubInput := by
  have hb : ∀ (b : List UInt8) (i j n : Nat), j - i ≤ 32 → bytesToBigInt (slice b i j) = some n →
      n < 2 ^ 256 := by
    intro b i j n hij hn
    unfold bytesToBigInt at hn
    split_ifs at hn
    rw [← Option.some.inj hn]
    have hl := leNat_lt (slice b i j).reverse
    have hlen : (slice b i j).reverse.length ≤ 32 := by
      rw [List.length_reverse, slice, List.length_take]; omega
    refine lt_of_lt_of_le hl (le_trans (Nat.pow_le_pow_right (by norm_num) hlen) (by norm_num))
  unfold PublicInput.deserialize at h
  simp only [Option.bind_eq_bind, Option.bind_eq_some_iff] at h
  obtain ⟨r, -, v, -, c, hc, h⟩ := h
  unfold CircuitPubInput.deserialize at hc
  simp only [Option.bind_eq_bind, Option.bind_eq_some_iff] at hc
  obtain ⟨a0, h0, a1, h1, a2, h2, a3, h3, a4, h4, hc⟩ := hc
  simp only [pure, Option.some.injEq] at h hc
  rw [← h, ← hc]
  exact ⟨hb _ _ _ _ (by norm_num) h0, hb _ _ _ _ (by norm_num) h1, hb _ _ _ _ (by norm_num) h2,
    hb _ _ _ _ (by norm_num) h3, hb _ _ _ _ (by norm_num) h4⟩

theorem verify_core {wv : List UInt8 → Out Bool} (D : Option PublicInput)
    (V : PublicInput → Option Bool) (S : CircuitPubInput → Option (List UInt8)) 
    (hfit : ∀ p, D = some p → ∃ bs, S p.circuitPubInput = some bs) (X : Option Bool)
    (hX : X = D.bind fun p => (V p).bind fun v =>
      some ((match S p.circuitPubInput with
        | none => false
        | some bs => match wv bs with
          | .ok b => b
          | .error _ => false) && v)) :
    X = some true ↔
    ∃ p bs, D = some p ∧ V p = some true ∧ S p.circuitPubInput = some bs ∧ wv bs = .ok true := by
  subst hX
  constructor
  · intro h
    cases hp : D with
    | none => rw [hp] at h; cases h
    | some p =>
      rw [hp, Option.bind_some] at h
      cases hv : V p with
      | none => rw [hv] at h; cases h
      | some v =>
        rw [hv, Option.bind_some] at h
        simp only [Option.some.injEq, Bool.and_eq_true] at h
        obtain ⟨h1, rfl⟩ := h
        obtain ⟨bs, hs⟩ := hfit p hp
        rw [hs] at h1
        refine ⟨p, bs, rfl, hv, hs, ?_⟩
        simp only at h1
        cases hw : wv bs with
        | ok b => rw [hw] at h1; simp only at h1; rw [h1]
        | error e => rw [hw] at h1; simp at h1
  · rintro ⟨p, bs, hp, hv, hs, hw⟩
    rw [hp, Option.bind_some, hv, Option.bind_some, hs]
    simp only [hw, Bool.and_self]

/-- C65, the final conjunction: `verify` returns true exactly when the public input decodes, its
public values are those of the signature, and the wasm verifier accepts the serialized circuit
inputs. -/
theorem lib_verify_iff {wv : List UInt8 → Out Bool} {ser : List UInt8} :
    Lib.verify wv ser = some true ↔ ∃ p bs, PublicInput.deserialize ser = some p ∧
      verifyEffEcdsaPubInput p = some true ∧ p.circuitPubInput.serialize = some bs ∧
      wv bs = .ok true := by
  have hfit : ∀ p, PublicInput.deserialize ser = some p →
      ∃ bs, p.circuitPubInput.serialize = some bs := fun p hp =>
    ⟨_, circuit_serialize_eq (deserialize_fits hp)⟩
  exact verify_core _ _ CircuitPubInput.serialize hfit _ (by unfold Lib.verify; rfl)

/-- What the check does not cover: the Merkle root. -/
theorem verify_pub_input_ignores_root (p : PublicInput) (root : Nat) :
    verifyEffEcdsaPubInput { p with circuitPubInput := { p.circuitPubInput with merkleRoot := root } } =
      verifyEffEcdsaPubInput p := rfl

/-- Non-vacuity: with `R = G` and the one-byte message `1` there are accepted public values. -/
example : ∃ c : CircuitPubInput, verifyEffEcdsaPubInput ⟨Koblitz.secpGx, 27, [1], c⟩ = some true := by
  have hmod : ∀ (k : ZMod secpN) (P : Secp), k ≠ 0 → P ≠ 0 → k • P ≠ 0 := fun k P hk hP =>
    smul_ne_zero hk hP
  have hG : basePoint ≠ 0 := Point.some_ne_zero _
  have hr : ((Koblitz.secpGx : ℕ) : ZMod secpN)⁻¹ ≠ 0 := by
    apply inv_ne_zero
    intro h
    rw [ZMod.natCast_eq_zero_iff] at h
    exact absurd h (by decide +kernel)
  have hL : IsLift basePoint Koblitz.secpGx (decide (27 % 2 = 0)) := by
    refine ⟨_, Koblitz.secpG_on, rfl, ?_⟩
    rw [ZMod.val_natCast]
    decide +kernel
  have hc : ∀ P : Secp, P ≠ 0 → ∃ x y, HasCoords P x y := by
    intro P hP
    cases P with
    | zero => exact absurd rfl hP
    | some a b h => exact ⟨_, _, a, b, h, rfl, rfl, rfl⟩
  obtain ⟨tx, ty, ht⟩ := hc _ (hmod _ _ hr hG)
  have hm : ((leNat ([1] : List UInt8).reverse : ℕ) : ZMod secpN) ≠ 0 := by
    rw [show leNat ([1] : List UInt8).reverse = 1 by decide, Nat.cast_one]; exact one_ne_zero
  obtain ⟨ux, uy, hu⟩ := hc _ (hmod _ _ (neg_ne_zero.mpr (mul_ne_zero hr hm)) hG)
  exact ⟨⟨0, tx, ty, ux, uy⟩, verify_pub_input_iff.mpr ⟨_, hL, ht, hu⟩⟩

/-- C66 at the level of the library: for every circuit with five public inputs, every signature value
`r`, `v`, every message and every Merkle root there is a proof that `verify` accepts, as long as the
byte-swapped public values are canonical.  No signature and no membership is involved. -/
theorem lib_verify_forgery {F G P : Type} [Field F] [DecidableEq F] [AddCommGroup G] [Module F G]
    [DecidableEq P] [DecidableEq G] (h2 : (2 : F) ≠ 0) (h3 : (3 : F) ≠ 0) {W : WasmEnv F G P}
    (hE : W.env.Lawful) (hu : ∀ t, W.env.hash (t ++ [.chal "u"]) ≠ 0)
    (hser : ∀ pf, W.decProof (W.encProof pf) = some pf)
    {r : CircomR1CS} (hr : Convertible W.codec r) (hc : r.constraints ≠ []) {I : Inst F}
    (hI : convertToSpartan W.codec r 5 = .ok I) (hsz : I.inst.numVars ≤ 2 ^ 62)
    {circuit : List UInt8} (hcirc : W.decInst circuit = some I)
    {p : PublicInput} (hpr : p.r < 2 ^ 256) (hpv : p.rV < 256) (hfit : PubFits p.circuitPubInput)
    (hpub : verifyEffEcdsaPubInput p = some true)
    (hcanon : ∀ x ∈ [p.circuitPubInput.merkleRoot, p.circuitPubInput.Tx, p.circuitPubInput.Ty,
      p.circuitPubInput.Ux, p.circuitPubInput.Uy], (W.codec.fromBytes (beBytes 32 x)).isSome)
    (label : List UInt8) (tr0 : Tr F P) :
    ∃ proof ser, p.serialize = some ser ∧
      Lib.verify (wasmVerify W label tr0 circuit proof) ser = some true := by
  obtain ⟨ser, hs, -, hd⟩ := pub_input_roundtrip hpr hpv hfit
  obtain ⟨bs, hb, hch⟩ := pub_input_chunks hfit
  have hlen : 5 * 32 ≤ bs.length := by
    obtain ⟨bs', hb', hl, -⟩ := circuit_pub_input_roundtrip hfit
    rw [hb] at hb'
    cases hb'
    omega
  obtain ⟨proof, hproof⟩ := wasm_verify_forgery h2 h3 hE hu hser hr hc hI hsz hcirc hlen (by
    rw [hch]
    intro b hb
    simp only [List.mem_cons, List.not_mem_nil, or_false] at hb
    rcases hb with rfl | rfl | rfl | rfl | rfl <;> exact hcanon _ (by simp)) label tr0
  exact ⟨proof, ser, hs, lib_verify_iff.mpr ⟨p, bs, hd, hpub, hb, hproof⟩⟩

/-! ### C55: efficient ECDSA and ECDSA -/

/-- With `T = r⁻¹ R` and `U = -(r⁻¹ m) G`, the equation `Q = s T + U` is `s R = m G + r Q`. -/
theorem eff_ecdsa_iff {G R Q : Secp} {m r s : ZMod secpN} (hr : r ≠ 0) :
    Q = s • (r⁻¹ • R) + (-(r⁻¹ * m)) • G ↔ s • R = m • G + r • Q := by
  constructor
  · intro h
    have e1 : r * (s * r⁻¹) = s := by rw [mul_comm s, ← mul_assoc, mul_inv_cancel₀ hr, one_mul]
    have e2 : r * -(r⁻¹ * m) = -m := by rw [mul_neg, ← mul_assoc, mul_inv_cancel₀ hr, one_mul]
    rw [h, smul_add, smul_smul s, smul_smul, smul_smul, e1, e2, neg_smul]
    abel
  · intro h
    have h' := congrArg (fun P => r⁻¹ • P) h
    simp only [smul_add, smul_smul] at h'
    rw [inv_mul_cancel₀ hr, one_smul] at h'
    rw [smul_smul, mul_comm s, h', neg_smul]
    abel

/-- C55: for the message hash `m` and `r, s` nonzero, `(r, s)` verifies as an ECDSA signature under `Q`
exactly when `Q = s T + U` for the `T` and `U` of some point whose x-coordinate is `r` modulo the
group order. -/
theorem eff_ecdsa_iff_ecdsa {G Q : Secp} {m r s : ZMod secpN} (hr : r ≠ 0) (hs : s ≠ 0) :
    EcdsaVerify G Q m r s ↔
      ∃ (x : Nat) (odd : Bool) (R : Secp), x < secpP ∧ (x : ZMod secpN) = r ∧ IsLift R x odd ∧
        Q = s • (r⁻¹ • R) + (-(r⁻¹ * m)) • G := by
  have key : ∀ R : Secp, (m * s⁻¹) • G + (r * s⁻¹) • Q = R ↔ s • R = m • G + r • Q := by
    intro R
    constructor
    · rintro rfl
      rw [smul_add, smul_smul, smul_smul, mul_comm m, mul_comm r, ← mul_assoc, ← mul_assoc,
        mul_inv_cancel₀ hs, one_mul, one_mul]
    · intro h
      have h' := congrArg (fun P => s⁻¹ • P) h
      simp only [smul_add, smul_smul] at h'
      rw [inv_mul_cancel₀ hs, one_smul] at h'
      rw [h', mul_comm m, mul_comm r]
  constructor
  · rintro ⟨-, -, a, b, h, hR, hx⟩
    have hval : ((a.val : ℕ) : ZMod secpP) = a := ZMod.natCast_zmod_val a
    have hn : (koblitz (ZMod secpP)).Nonsingular ((a.val : ℕ) : ZMod secpP) b := by rw [hval]; exact h
    refine ⟨a.val, decide (b.val % 2 = 1), .some a b h, ZMod.val_lt a, hx, ⟨b, hn, ?_, by simp⟩, ?_⟩
    · congr 1; exact hval.symm
    · rw [eff_ecdsa_iff hr, ← key]; exact hR
  · rintro ⟨x, odd, R, hx, hxr, ⟨b, h, rfl, -⟩, hQ⟩
    refine ⟨hs, hr, _, b, h, (key _).mpr ((eff_ecdsa_iff hr).mp hQ), ?_⟩
    rw [ZMod.val_natCast, Nat.mod_eq_of_lt hx, hxr]

/-- Non-vacuity: the key `Q = G` with `R = G`, `r = x(G)`, `m = 1` has the signature `s = 1 + r`. -/
example : ∃ s r : ZMod secpN, r ≠ 0 ∧ s ≠ 0 ∧ EcdsaVerify basePoint basePoint 1 r s := by
  have hr : ((Koblitz.secpGx : ℕ) : ZMod secpN) ≠ 0 := by
    intro h
    rw [ZMod.natCast_eq_zero_iff] at h
    exact absurd h (by decide +kernel)
  have hs : ((1 + Koblitz.secpGx : ℕ) : ZMod secpN) ≠ 0 := by
    intro h
    rw [ZMod.natCast_eq_zero_iff] at h
    exact absurd h (by decide +kernel)
  refine ⟨_, _, hr, hs, (eff_ecdsa_iff_ecdsa hr hs).mpr ⟨Koblitz.secpGx,
    decide (((Koblitz.secpGy : ℕ) : ZMod secpP).val % 2 = 1), basePoint, by decide +kernel, rfl,
    ⟨_, Koblitz.secpG_on, rfl, by simp⟩, ?_⟩⟩
  rw [eff_ecdsa_iff hr, Nat.cast_add, Nat.cast_one, add_smul]

end Spartan
