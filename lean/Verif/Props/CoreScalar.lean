import Verif.Model.CoreScalar
import Verif.Props.Group
import Verif.Props.Scalar
import Verif.Lemmas.LC

/-!
Property C88: the scalar type of the curve crate, `secq256k1::Scalar`.

Its values are the integers below `p`; the theorems read such a value `a` as the residue
`(a : ZMod secpP)`.
-/

namespace Spartan.CoreScalar

open Spartan MParams

theorem order_eq : secqOrder = secpP := by decide +kernel

attribute [local irreducible] secqOrder secpP

theorem unwrap_some {α : Type} (a : α) : unwrap (some a) = .ok a := rfl

/-- The values of the type. -/
def Valid (a : Nat) : Prop := a < secpP

theorem fromBytes_toBytes {a : Nat} (ha : Valid a) :
    ∃ x, paramsP.fromBytes (toBytes a) = some x ∧ x.Rep secpP (a : ZMod secpP) := by
  have hl : (toBytes a).length = 32 := leBytes_length 32 a
  have hv : leNat (toBytes a) = a := by
    rw [toBytes, leNat_leBytes]
    exact Nat.mod_eq_of_lt (lt_of_lt_of_le ha (by unfold secpP; norm_num))
  obtain ⟨x, hx⟩ := (scalar_from_bytes hl).1.mpr (by rw [hv]; exact ha)
  exact ⟨x, hx, by rw [← hv]; exact ((scalar_from_bytes hl).2 x hx).1⟩

theorem coreFromRepr_toBeBytes {a : Limbs} {x : ZMod secpP} (ha : a.Rep secpP x) :
    coreFromRepr (paramsP.toBeBytes a) = some x.val := by
  have e := (field_be_bytes .secp ha).1
  obtain ⟨hl, hv, -⟩ := scalar_to_bytes ha
  have hl' : (paramsP.toBeBytes a).length = 32 := by rw [← List.length_reverse, e, hl]
  haveI : NeZero secpP := valid_P.neZero
  rw [coreFromRepr, e, hv, if_pos ⟨hl', by rw [order_eq]; exact ZMod.val_lt x⟩]

/-- C88, arithmetic.  Addition, subtraction, negation, doubling and multiplication never panic, give
values of the type and are the operations of `F_p`. -/
theorem core_ring_ops {a b : Nat} (ha : Valid a) (hb : Valid b) :
    (Valid (add a b) ∧ (add a b : ZMod secpP) = a + b) ∧
    (Valid (sub a b) ∧ (sub a b : ZMod secpP) = a - b) ∧
    (Valid (neg a) ∧ (neg a : ZMod secpP) = -a) ∧
    (Valid (double a) ∧ (double a : ZMod secpP) = 2 * a) ∧
    (∃ c, mul a b = .ok c ∧ Valid c ∧ (c : ZMod secpP) = a * b) := by
  haveI : NeZero secpP := valid_P.neZero
  have hp : 0 < secpP := Nat.pos_of_ne_zero (NeZero.ne _)
  unfold Valid at *
  refine ⟨⟨?_, ?_⟩, ⟨?_, ?_⟩, ⟨?_, ?_⟩, ⟨?_, ?_⟩, ?_⟩
  · rw [add, order_eq]; exact Nat.mod_lt _ hp
  · rw [add, order_eq, ZMod.natCast_mod, Nat.cast_add]
  · rw [sub, order_eq]; exact Nat.mod_lt _ hp
  · rw [sub, order_eq, ZMod.natCast_mod, Nat.cast_add, Nat.cast_sub hb.le, ZMod.natCast_self]
    ring
  · rw [neg, order_eq]; exact Nat.mod_lt _ hp
  · rw [neg, order_eq, ZMod.natCast_mod, Nat.cast_sub ha.le, ZMod.natCast_self]
    ring
  · rw [double, add, order_eq]; exact Nat.mod_lt _ hp
  · rw [double, add, order_eq, ZMod.natCast_mod, Nat.cast_add]; ring
  · obtain ⟨x, hx, rx⟩ := fromBytes_toBytes ha
    obtain ⟨y, hy, ry⟩ := fromBytes_toBytes hb
    have rm := (scalar_ring_ops rx ry).2.2.2.1
    refine ⟨((a : ZMod secpP) * b).val, ?_, ZMod.val_lt _, ZMod.natCast_zmod_val _⟩
    rw [mul, hx, hy, unwrap_some, unwrap_some, ok_bind, ok_bind, coreFromRepr_toBeBytes rm,
      unwrap_some]

/-- Non-vacuity: the largest value times itself is `1`, computed without a panic. -/
example : ∃ c, mul (secpP - 1) (secpP - 1) = .ok c ∧ c = 1 := by
  have hv : Valid (secpP - 1) := by unfold Valid secpP; norm_num
  obtain ⟨c, h, hc, e⟩ := (core_ring_ops hv hv).2.2.2.2
  refine ⟨c, h, ?_⟩
  have h1 : ((secpP - 1 : ℕ) : ZMod secpP) = -1 := by
    rw [Nat.cast_sub (by unfold secpP; norm_num), ZMod.natCast_self]; simp
  rw [h1] at e
  have h3 : ((c : ℕ) : ZMod secpP) = ((1 : ℕ) : ZMod secpP) := by rw [e]; simp
  have h4 := (ZMod.natCast_eq_natCast_iff' c 1 secpP).1 h3
  rwa [Nat.mod_eq_of_lt hc, Nat.mod_eq_of_lt (by unfold secpP; norm_num)] at h4

/-- C88, encodings.  `to_repr` is the 32-byte big-endian encoding and `to_bytes` the little-endian
one; `from_repr` accepts exactly the canonical encodings and undoes `to_repr`. -/
theorem core_repr :
    (∀ a, Valid a → (coreToRepr a).length = 32 ∧ leNat (coreToRepr a).reverse = a ∧
      coreFromRepr (coreToRepr a) = some a ∧ toBytes a = (coreToRepr a).reverse) ∧
    (∀ bs a, coreFromRepr bs = some a ↔ bs.length = 32 ∧ leNat bs.reverse = a ∧ Valid a) ∧
    (∀ bs a, coreFromRepr bs = some a → coreToRepr a = bs) := by
  have key : ∀ bs a, coreFromRepr bs = some a ↔ bs.length = 32 ∧ leNat bs.reverse = a ∧ Valid a := by
    intro bs a
    rw [coreFromRepr, order_eq]
    constructor
    · intro h
      split_ifs at h with hc
      cases h
      exact ⟨hc.1, rfl, hc.2⟩
    · rintro ⟨h1, h2, h3⟩
      rw [if_pos ⟨h1, by rw [h2]; exact h3⟩, h2]
  have hlen : ∀ a, (coreToRepr a).length = 32 := fun a => by
    rw [coreToRepr, beBytes32, List.length_reverse, leBytes_length]
  have hval : ∀ a, Valid a → leNat (coreToRepr a).reverse = a := fun a ha => by
    rw [coreToRepr, beBytes32, List.reverse_reverse, leNat_leBytes]
    exact Nat.mod_eq_of_lt (lt_of_lt_of_le ha (by unfold secpP; norm_num))
  refine ⟨fun a ha => ⟨hlen a, hval a ha, (key _ _).2 ⟨hlen a, hval a ha, ha⟩, ?_⟩, key, ?_⟩
  · rw [coreToRepr, beBytes32, List.reverse_reverse, toBytes]
  · intro bs a h
    obtain ⟨h1, h2, -⟩ := (key _ _).1 h
    rw [coreToRepr, beBytes32, ← h2, ← h1, ← List.length_reverse, leBytes_leNat,
      List.reverse_reverse]

/-- Non-vacuity: `p - 1` is accepted, `p` is not. -/
example : coreFromRepr (beBytes32 (secpP - 1)) = some (secpP - 1) ∧
    coreFromRepr (beBytes32 secpP) = none := by
  unfold secpP
  decide +kernel

/-- C88, conversions from integers.  Every 256-bit integer is reduced modulo `p` without a panic,
`try_from` accepts exactly the integers below `p`, and every `u64` is kept. -/
theorem core_from_int :
    (∀ w, w < 2 ^ 256 → fromUintReduced w = .ok (w % secpP)) ∧
    (∀ w v, new w = some v ↔ v = w ∧ w < secpP) ∧
    (∀ n : UInt64, Valid (fromU64 n) ∧ fromU64 n = n.toNat) := by
  have hp : secpP = 2 ^ 256 - 4294968273 := by unfold secpP; norm_num
  refine ⟨?_, ?_, ?_⟩
  · intro w hw
    have hnew : ∀ v, new v = if v < secpP then some v else none := fun v => by rw [new, order_eq]
    rw [fromUintReduced, order_eq]
    simp only [hnew]
    clear hnew
    generalize secpP = p at hp ⊢
    by_cases h : w < p
    · simp only [h, decide_true, Bool.not_true, Bool.false_eq_true, if_false]
      rw [Nat.mod_eq_of_lt h, if_pos trivial]
      rfl
    · simp only [h, decide_false, Bool.not_false, if_true]
      have e1 : (w + (2 ^ 256 - p)) % 2 ^ 256 = w - p := by
        rw [show w + (2 ^ 256 - p) = (w - p) + 2 ^ 256 by omega, Nat.add_mod_right]
        exact Nat.mod_eq_of_lt (by omega)
      have e2 : w % p = w - p := by
        rw [Nat.mod_eq_sub_mod (by omega)]
        exact Nat.mod_eq_of_lt (by omega)
      rw [e1, e2, if_pos (by omega)]
      rfl
  · intro w v
    rw [new, order_eq]
    split_ifs with h
    · simp [h, eq_comm]
    · simp [h]
  · intro n
    refine ⟨?_, rfl⟩
    have := n.toNat_lt
    unfold Valid fromU64
    rw [hp]
    omega

/-- Non-vacuity: the largest 256-bit integer. -/
example : fromUintReduced (2 ^ 256 - 1) = .ok 4294968272 := by decide +kernel

/-- C88, `random`: the value of the first block of 32 bytes that is a canonical encoding; the loop
goes on exactly as long as no block is one. -/
theorem core_random (blocks : List (List UInt8)) :
    (∀ a, random blocks = some a ↔ ∃ i, ∃ h : i < blocks.length, coreFromRepr blocks[i] = some a ∧
      ∀ j, ∀ hj : j < i, coreFromRepr (blocks[j]'(hj.trans h)) = none) ∧
    (random blocks = none ↔ ∀ bs ∈ blocks, coreFromRepr bs = none) := by
  induction blocks with
  | nil => simp [random]
  | cons bs rest ih =>
    obtain ⟨ih1, ih2⟩ := ih
    rcases hc : coreFromRepr bs with _ | x
    · simp only [random, hc]
      refine ⟨fun a => ?_, ?_⟩
      · rw [ih1]
        constructor
        · rintro ⟨i, h, h1, h2⟩
          refine ⟨i + 1, by simpa using h, by simpa using h1, ?_⟩
          rintro (_ | j) hj
          · simpa using hc
          · simpa using h2 j (by omega)
        · rintro ⟨_ | i, h, h1, h2⟩
          · simp [hc] at h1
          · exact ⟨i, by simpa using h, by simpa using h1, fun j hj => by
              simpa using h2 (j + 1) (by omega)⟩
      · rw [ih2]; simp [hc]
    · simp only [random, hc]
      refine ⟨fun a => ?_, by simp [hc]⟩
      constructor
      · rintro h
        cases h
        exact ⟨0, by simp, by simpa using hc, fun j hj => absurd hj (by omega)⟩
      · rintro ⟨_ | i, h, h1, h2⟩
        · simpa [hc] using h1
        · have := h2 0 (by omega)
          simp [hc] at this

/-- Non-vacuity: a rejected block followed by an accepted one. -/
example : random [List.replicate 32 255, beBytes32 5] = some 5 := by decide +kernel

/-- C88, parity and halves. -/
theorem core_predicates {a : Nat} (ha : Valid a) :
    (isOdd a = true ↔ (a : ZMod secpP).val % 2 = 1) ∧
    (isHigh a = true ↔ ((neg a : ℕ) < a)) := by
  haveI : NeZero secpP := valid_P.neZero
  have hodd : secpP % 2 = 1 := by unfold secpP; decide
  refine ⟨?_, ?_⟩
  · rw [ZMod.val_natCast, Nat.mod_eq_of_lt ha, isOdd]; simp
  · rw [isHigh, decide_eq_true_iff, neg, order_eq]
    unfold Valid at ha
    generalize secpP = p at *
    rcases Nat.eq_zero_or_pos a with rfl | h0
    · simp
    · rw [Nat.mod_eq_of_lt (by omega)]
      omega

/-- C88 is false of the rest of the `Field` interface: squares, inverses, square roots, sums,
products and powers of every scalar panic, while the corresponding products with `*` exist. -/
theorem core_unimplemented :
    (∀ a, square a = .error .panic) ∧ (∀ a, invert a = .error .panic) ∧
    (∀ a, sqrt a = .error .panic) ∧ (∀ l, sum l = .error .panic) ∧
    (∀ l, product l = .error .panic) ∧
    (∀ a bits, bits ≠ [] → powVartime a bits = .error .panic) ∧
    (∀ a, Valid a → ∃ c, mul a a = .ok c ∧ (c : ZMod secpP) = (a : ZMod secpP) ^ 2) := by
  refine ⟨fun _ => rfl, fun _ => rfl, fun _ => rfl, fun _ => rfl, fun _ => rfl, ?_, ?_⟩
  · intro a bits hb
    rcases bits with _ | ⟨b, bits⟩
    · exact absurd rfl hb
    · rfl
  · intro a ha
    obtain ⟨c, h, -, e⟩ := (core_ring_ops ha ha).2.2.2.2
    exact ⟨c, h, by rw [e]; ring⟩

/-- C88 is false of `char_le_bits`: read as little-endian its bytes are not the modulus; they are the
modulus in big-endian order. -/
theorem core_char_le_bits :
    leNat charLeBytes ≠ secpP ∧ leNat charLeBytes.reverse = secpP := by
  unfold secpP
  decide +kernel

/-- The conversion of Spartan's scalars to this type, `decompress_scalar`: it never panics and keeps
the value. -/
theorem core_decompress {a : Limbs} {x : ZMod secpP} (ha : a.Rep secpP x) :
    fromUintReduced (leNat (paramsP.toBytes a)) = .ok x.val ∧
    decompressScalar a = x.val := by
  haveI : NeZero secpP := valid_P.neZero
  have hlt := ZMod.val_lt x
  have e : leNat (paramsP.toBytes a) = x.val := (scalar_to_bytes ha).2.1
  refine ⟨?_, ?_⟩
  · rw [e, core_from_int.1 _ (lt_of_lt_of_le hlt (by unfold secpP; norm_num)),
      Nat.mod_eq_of_lt hlt]
  · rw [decompressScalar, e, order_eq, Nat.mod_eq_of_lt hlt]

/-- Non-vacuity. -/
example : fromUintReduced (leNat (paramsP.toBytes (paramsP.fromU64 3))) = .ok (3 : ZMod secpP).val := by
  have := (core_decompress (scalar_reductions.2.2 3)).1
  simpa using this

end Spartan.CoreScalar
