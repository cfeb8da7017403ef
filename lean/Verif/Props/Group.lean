import Verif.Model.Group
import Verif.Lemmas.LimbsInv

/-!
Properties C11, C12 and C67: the group of the commitments, its scalar multiplication, its encodings,
and the `PrimeField` constants.
-/

set_option exponentiation.threshold 2000

namespace Spartan

open MParams WeierstrassCurve.Affine

/-! ### C11 -/

/-- Both groups have prime order: secq256k1 has `p` points, secp256k1 has `q` points. -/
theorem curve_orders : Nat.card Secq = secpP ∧ Nat.Prime secpP ∧
    Nat.card Secp = secpN ∧ Nat.Prime secpN :=
  ⟨Koblitz.card_secq, secpP_prime, Koblitz.card_secp, secpN_prime⟩

/-- Every point of secq256k1 is annihilated by `p`, every point of secp256k1 by `q`. -/
theorem curve_annihilated : (∀ P : Secq, secpP • P = 0) ∧ (∀ P : Secp, secpN • P = 0) := by
  constructor
  · intro P
    rw [← Koblitz.card_secq]; exact card_nsmul_eq_zero'
  · intro P
    rw [← Koblitz.card_secp]; exact card_nsmul_eq_zero'

/-- secq256k1 is a vector space over the scalar field. -/
noncomputable instance secqModule : Module (ZMod secpP) Secq :=
  AddCommGroup.zmodModule curve_annihilated.1

/-- secp256k1 is a vector space over the integers modulo `q`. -/
noncomputable instance secpModule : Module (ZMod secpN) Secp :=
  AddCommGroup.zmodModule curve_annihilated.2

/-- The vector space structure is repeated addition: any integer of the residue class may be used. -/
theorem secq_smul_nat (n : Nat) (P : Secq) : (n : ZMod secpP) • P = n • P :=
  Nat.cast_smul_eq_nsmul (ZMod secpP) n P

theorem secp_smul_nat (n : Nat) (P : Secp) : (n : ZMod secpN) • P = n • P :=
  Nat.cast_smul_eq_nsmul (ZMod secpN) n P

/-- `GroupElement * Scalar`: the integer passed to the curve code by `decompress_scalar` multiplies
a point exactly as the residue that the `Scalar` represents. -/
theorem scalar_mul_correct {a : Limbs} {x : ZMod secpP} (ha : a.Rep secpP x) (P : Secq) :
    decompressScalar a = x.val ∧ decompressScalar a • P = x • P := by
  have hv : decompressScalar a = x.val := by
    rw [decompressScalar, toBytes_eq valid_P ha, leNat_leBytes,
      show secqOrder = secpP by decide +kernel]
    have hx : x.val < secpP := ZMod.val_lt x
    rw [Nat.mod_eq_of_lt (lt_of_lt_of_le (lt_trans hx valid_P.lt) (by norm_num)),
      Nat.mod_eq_of_lt hx]
  refine ⟨hv, ?_⟩
  rw [hv, ← secq_smul_nat, ZMod.natCast_zmod_val]

/-- Different residues give different multiples of a nonzero point, and every point is a multiple
of any nonzero point. -/
theorem secq_cyclic (P : Secq) (hP : P ≠ 0) :
    Function.Bijective (fun x : ZMod secpP => x • P) := by
  have hinj : Function.Injective (fun x : ZMod secpP => x • P) := smul_left_injective _ hP
  haveI : Finite (ZMod secpP) := inferInstance
  rw [Nat.bijective_iff_injective_and_card]
  exact ⟨hinj, by rw [Nat.card_zmod, Koblitz.card_secq]⟩

/-- `usize::to_scalar` and `bool::to_scalar`. -/
theorem to_scalar_correct :
    (∀ n : Nat, (usizeToScalar n).Rep secpP (n : ZMod secpP)) ∧
    (boolToScalar true).Rep secpP 1 ∧ (boolToScalar false).Rep secpP 0 := by
  refine ⟨fun n => ?_, rep_one valid_P, rep_zero valid_P⟩
  have : ∀ (n : Nat) (a : Limbs) (x : ZMod secpP), a.Rep secpP x →
      ((List.replicate n paramsP.one).foldl paramsP.add a).Rep secpP (x + n) := by
    intro n
    induction n with
    | zero => intro a x h; simpa using h
    | succ n ih =>
      intro a x h
      have := ih _ _ (rep_add valid_P h (rep_one valid_P))
      rw [List.replicate_succ, List.foldl_cons]
      rw [show x + ((n + 1 : ℕ) : ZMod secpP) = x + 1 + n by push_cast; ring]
      exact this
  have h := this n MParams.zero 0 (rep_zero valid_P)
  rwa [zero_add] at h

/-- The curve constants of the code: the limbs of `EQUATION_B` represent 7, `ORDER` is `p`, and
the limbs of the generator represent a point of secq256k1, of order `p`. -/
theorem curve_constants : secqB.Rep secpN 7 ∧ secqOrder = secpP ∧
    ∃ (x y : ZMod secpN) (h : (koblitz (ZMod secpN)).Nonsingular x y),
      secqGenX.Rep secpN x ∧ secqGenY.Rep secpN y ∧
      addOrderOf (Point.some x y h : Secq) = secpP := by
  refine ⟨?_, by decide +kernel, _, _, Koblitz.secqG_on, ?_, ?_, ?_⟩
  · have : secqB.Rep secpN ((7 : ℕ) : ZMod secpN) := rep_const (by decide +kernel)
    exact_mod_cast this
  · exact rep_const (by decide +kernel)
  · exact rep_const (by decide +kernel)
  · exact addOrderOf_eq_prime Koblitz.secqG_order (Point.some_ne_zero _)

/-- Non-vacuity: a nonzero point. -/
example : (Point.some _ _ Koblitz.secqG_on : Secq) ≠ 0 := Point.some_ne_zero _

/-! ### C12 -/

/-- C12, the part that holds: `unpack` returns the point when the encoding decodes, and otherwise
does not return a point.  Missing: that it returns `Err(DecompressionError)`, which is false
(`unpack_error_panics`). -/
theorem unpack_partial {G : Type} (decode : List UInt8 → Option G) (bs : List UInt8) :
    (∀ g, unpackBytes decode bs = .ok g ↔ decode bs = some g) := by
  intro g
  unfold unpackBytes
  cases h : decode bs with
  | none => simp only; split_ifs <;> simp
  | some g' => simp

/-- C12 is false: for every encoding an `EncodedPoint` can hold that does not decode, `unpack`
panics instead of returning `Err`. -/
theorem unpack_error_panics {G : Type} (decode : List UInt8 → Option G) (bs : List UInt8)
    (hs : sec1Shape bs = true) (hd : decode bs = none) :
    unpackBytes decode bs = .error .panic ∧ decompressBytes decode bs = .error .panic := by
  have hl : bs.length ≠ 32 := by
    cases bs with
    | nil => simp
    | cons t rest =>
      simp only [sec1Shape, Bool.or_eq_true, Bool.and_eq_true, beq_iff_eq] at hs
      simp only [List.length_cons]
      omega
  have h : unpackBytes decode bs = .error .panic := by
    unfold unpackBytes
    rw [hd]; simp only [if_neg hl]
  refine ⟨h, ?_⟩
  unfold decompressBytes
  rw [h]

/-- So no `EncodedPoint` makes `unpack` return `DecompressionError`: the abstract `Env.unpack` of
the protocol model is what the code does. -/
theorem unpack_never_err {G : Type} (decode : List UInt8 → Option G) (bs : List UInt8)
    (hs : sec1Shape bs = true) (e : VErr) : unpackBytes decode bs ≠ .error (.err e) := by
  cases hd : decode bs with
  | none => rw [(unpack_error_panics decode bs hs hd).1]; simp
  | some g => rw [(unpack_partial decode bs g).mpr hd]; simp

theorem unpack_refines {F G : Type} (hash : Tr F {bs // sec1Shape bs = true} → F)
    (enc : G → {bs // sec1Shape bs = true}) (decode : List UInt8 → Option G)
    (bs : {bs // sec1Shape bs = true}) :
    Env.unpack (⟨enc, fun b => decode b.1, hash⟩ : Env F G _) bs = unpackBytes decode bs.1 := by
  cases hd : decode bs.1 with
  | none => rw [(unpack_error_panics decode bs.1 bs.2 hd).1]; simp only [Env.unpack, hd]
  | some g => rw [(unpack_partial decode bs.1 g).mpr hd]; simp only [Env.unpack, hd]

/-! ### The point encoding -/

/-- What is assumed of `FieldElement::sqrt` of `field_secq.rs` (k256's `Scalar::sqrt`). -/
def SqrtSpec (sqrt : ZMod secpN → Option (ZMod secpN)) : Prop :=
  ∀ a, (∀ r, sqrt a = some r → r ^ 2 = a) ∧ (IsSquare a → ∃ r, sqrt a = some r)

theorem neg_parity {y : ZMod secpN} (hy : y ≠ 0) : (-y).val % 2 = 1 ↔ ¬ y.val % 2 = 1 := by
  have h1 : (-y).val = secpN - y.val := by
    rw [ZMod.neg_val, if_neg hy]
  have h2 : y.val < secpN := ZMod.val_lt y
  have h3 : secpN % 2 = 1 := by decide +kernel
  omega

/-- No point of secq256k1 has `y = 0`. -/
theorem secq_y_ne {x y : ZMod secpN} (h : (koblitz (ZMod secpN)).Nonsingular x y) : y ≠ 0 := by
  rintro rfl
  have h2 : (Point.some x 0 h : Secq) + Point.some x 0 h = 0 :=
    Point.add_self_of_Y_eq (by rw [Koblitz.negY, neg_zero])
  have hp := curve_annihilated.1 (Point.some x 0 h)
  have : (2 : ℕ) • (Point.some x 0 h : Secq) = 0 := by rw [two_nsmul]; exact h2
  have h3 : secpP = 2 * (secpP / 2) + 1 := by decide +kernel
  rw [h3, add_nsmul, mul_comm, mul_nsmul', this, nsmul_zero, zero_add, one_nsmul] at hp
  exact Point.some_ne_zero h hp

/-- Choosing the root with the parity of the tag, for an abstract parity. -/
theorem select_root {F : Type} [AddGroup F] (odd : F → Prop) [DecidablePred odd]
    (hneg : ∀ y : F, y ≠ 0 → (odd (-y) ↔ ¬ odd y)) {r y : F} (hy : y ≠ 0) (hr : r = y ∨ r = -y)
    {t : UInt8} (ht : t = if odd y then 3 else 2) :
    (if odd r = (t = 3) then r else -r) = y := by
  have ht3 : t = 3 ↔ odd y := by rw [ht]; split_ifs with hh <;> simp [hh]
  rcases hr with rfl | rfl
  · rw [if_pos (propext ht3.symm)]
  · rw [if_neg, neg_neg]
    intro hc'
    have h1 := hneg y hy
    have h2 := eq_iff_iff.mp hc'
    tauto

theorem select_tag {F : Type} [AddGroup F] (odd : F → Prop) [DecidablePred odd]
    (hneg : ∀ y : F, y ≠ 0 → (odd (-y) ↔ ¬ odd y)) {r : F} {t : UInt8} (ht : t = 2 ∨ t = 3)
    (h0 : (if odd r = (t = 3) then r else -r) ≠ 0) :
    (if odd (if odd r = (t = 3) then r else -r) then (3 : UInt8) else 2) = t := by
  have h23 : (2 : UInt8) ≠ 3 := by decide
  by_cases h4 : odd r = (t = 3)
  · rw [if_pos h4]
    have h4' := eq_iff_iff.mp h4
    rcases ht with rfl | rfl
    · rw [if_neg (fun h => h23 (h4'.mp h))]
    · rw [if_pos (h4'.mpr rfl)]
  · rw [if_neg h4] at h0 ⊢
    have h1 := hneg (-r) h0
    rw [neg_neg] at h1
    have h4' : ¬ (odd r ↔ t = 3) := fun hh => h4 (propext hh)
    rcases ht with rfl | rfl
    · have : odd r := by by_contra hh; exact h4' ⟨fun h => absurd h hh, fun h => absurd h h23⟩
      rw [if_neg (h1.mp this)]
    · have : ¬ odd r := fun hh => h4' ⟨fun _ => rfl, fun _ => hh⟩
      rw [if_pos (by by_contra hh; exact this (h1.mpr hh))]

/-- Decoding inverts encoding for every point, including the identity: the hypothesis
`Env.Lawful` of the protocol theorems holds of the concrete encoding. -/
theorem secq_decompress_compress {sqrt : ZMod secpN → Option (ZMod secpN)} (hs : SqrtSpec sqrt)
    (P : Secq) : secqDecompress sqrt (secqCompress P) = some P := by
  cases P with
  | zero => simp [secqCompress, secqDecompress]
  | some x y h =>
    have hy := secq_y_ne h
    have hc := Koblitz.secq_nonsingular.mp h
    have hx : x.val < secpN := ZMod.val_lt x
    have hlen : (beBytes32 x.val).length = 32 := by simp [beBytes32, leBytes_length]
    have hval : leNat (beBytes32 x.val).reverse = x.val := by
      rw [beBytes32, List.reverse_reverse, leNat_leBytes,
        Nat.mod_eq_of_lt (lt_of_lt_of_le (lt_trans hx valid_Q.lt) (by norm_num))]
    obtain ⟨r, hr⟩ := (hs (x ^ 3 + 7)).2 ⟨y, by rw [← hc, pow_two]⟩
    have hr2 := (hs _).1 r hr
    have hry : r = y ∨ r = -y := by
      rw [← hc] at hr2
      exact sq_eq_sq_iff_eq_or_eq_neg.mp hr2
    have hsel (t : UInt8) (ht : t = if y.val % 2 = 1 then 3 else 2) :
        (if (r.val % 2 = 1) = (t = 3) then r else -r) = y :=
      select_root (fun z : ZMod secpN => z.val % 2 = 1) (fun _ h => neg_parity h) hy hry ht
    rw [secqCompress]
    obtain ⟨t, ht⟩ : ∃ t, t = (if y.val % 2 = 1 then (3 : UInt8) else 2) := ⟨_, rfl⟩
    have ht0 : t = 2 ∨ t = 3 := by rw [ht]; split_ifs <;> simp
    have ht00 : t ≠ 0 := by rcases ht0 with h | h <;> rw [h] <;> decide
    rw [← ht, secqDecompress]
    rw [if_neg (fun h => ht00 h.1), if_pos ⟨ht0, hlen⟩, if_pos (by rw [hval]; exact hx)]
    simp only [hval, ZMod.natCast_zmod_val, hr, hsel t ht]
    rw [dif_pos hc]

/-- Encodings are canonical: an identity or compressed encoding that decodes is the encoding of
the point it decodes to, so two different ones never decode to the same point. -/
theorem secq_compress_decompress {sqrt : ZMod secpN → Option (ZMod secpN)}
    {bs : List UInt8} {P : Secq} (h : secqDecompress sqrt bs = some P) : secqCompress P = bs := by
  cases bs with
  | nil => simp [secqDecompress] at h
  | cons t rest =>
    rw [secqDecompress] at h
    split_ifs at h with h1 h2 h3
    · obtain ⟨rfl, rfl⟩ := h1
      rw [← Option.some.inj h]; rfl
    · simp only at h
      generalize sqrt _ = sr at h
      cases sr with
      | none => simp at h
      | some r =>
        simp only at h
        by_cases h5 : (if (r.val % 2 = 1) = (t = 3) then r else -r) ^ 2 =
            ((leNat rest.reverse : ℕ) : ZMod secpN) ^ 3 + 7
        · rw [dif_pos h5] at h
          have hn := Koblitz.secq_nonsingular.mpr h5
          have hb : beBytes32 (leNat rest.reverse) = rest := by
            have := leBytes_leNat rest.reverse
            rw [List.length_reverse, h2.2] at this
            rw [beBytes32, this, List.reverse_reverse]
          have htag := select_tag (fun z : ZMod secpN => z.val % 2 = 1) (fun _ h => neg_parity h)
            (r := r) h2.1 (secq_y_ne hn)
          rw [← Option.some.inj h, secqCompress, ZMod.val_natCast, Nat.mod_eq_of_lt h3, hb]
          exact congrArg (· :: rest) htag
        · rw [dif_neg h5] at h
          cases h

/-- A square root function satisfying the assumption exists, so the two theorems are not vacuous. -/
theorem exists_sqrtSpec : ∃ sqrt, SqrtSpec sqrt := by
  classical
  refine ⟨fun a => if h : IsSquare a then some h.choose else none, fun a => ⟨?_, ?_⟩⟩
  · intro r hr
    by_cases h : IsSquare a
    · simp only [dif_pos h] at hr
      rw [← Option.some.inj hr, pow_two]; exact h.choose_spec.symm
    · simp only [dif_neg h] at hr
      cases hr
  · intro h
    exact ⟨_, dif_pos h⟩

end Spartan
