import Verif.Lemmas.Poseidon
import Verif.Lemmas.Circuits
import Verif.Model.Membership
import Verif.Props.Scalar
import Verif.Spec.Merkle

/-!
C46–C49: the Poseidon hash in Rust and in the circuits, and the Merkle inclusion circuit.
-/

namespace Spartan

open Spec

/-! ### The Rust hash -/

/-- The parameters listed in `k256_consts.rs`, over any field. -/
def k256Params (F : Type) [Field F] : PoseidonParams F where
  rf := k256NumFullRounds
  rp := k256NumPartialRounds
  rc r j := ((k256RoundConstants.getD (3 * r + j) 0 : ℕ) : F)
  mds i j := (((k256Mds.getD i []).getD j 0 : ℕ) : F)

/-- Exact arithmetic in a field, as an implementation. -/
def FieldImpl.exact (F : Type) [Field F] : FieldImpl F where
  zero := 0
  fromU64 v := v.toNat
  add := (· + ·)
  mul := (· * ·)
  pow x a b c d := x ^ (a.toNat + 2 ^ 64 * b.toNat + 2 ^ 128 * c.toNat + 2 ^ 192 * d.toNat)

theorem exact_computes (F : Type) [Field F] : (FieldImpl.exact F).Computes (· = ·) where
  zero := rfl
  fromU64 _ := rfl
  add h1 h2 := by rw [h1, h2]; rfl
  mul h1 h2 := by rw [h1, h2]; rfl
  pow e h := by rw [h]; simp [FieldImpl.exact]

theorem secp_computes : FieldImpl.secp.Computes (fun a x => a.Rep secpP x) where
  zero := (field_ring_ops (a := MParams.zero) (b := MParams.zero) .secp
    (MParams.rep_zero FieldCode.secp.valid) (MParams.rep_zero FieldCode.secp.valid)).2.2.2.2.2.2.1
  fromU64 v := (field_reductions .secp).2.2 v
  add h1 h2 := (field_ring_ops .secp h1 h2).1
  mul h1 h2 := (field_ring_ops .secp h1 h2).2.2.2.1
  pow e h := by
    have := field_pow .secp h e 0 0 0
    simp only [UInt64.toNat_zero, mul_zero, add_zero] at this
    exact this

theorem k256Constants_rel {α F : Type} [Field F] {I : FieldImpl α} {R : α → F → Prop}
    (hI : I.Computes R) : KRel R (k256Constants I) (k256Params F) where
  rf := rfl
  rp := rfl
  keys r hr j := by
    have hl : k256RoundConstants.length = 192 := by decide +kernel
    have hr' : r < 64 := lt_of_lt_of_eq hr
      (by norm_num [k256Params, k256NumFullRounds, k256NumPartialRounds])
    have hlt : (j : ℕ) + 3 * r < k256RoundConstants.length := by omega
    refine ⟨I.fromDecimal (k256RoundConstants[(j : ℕ) + 3 * r]), ?_, ?_⟩
    · simp [k256Constants, hlt]
    · have := fromDecimal_rel hI (k256RoundConstants[(j : ℕ) + 3 * r])
      simpa only [k256Params, List.getD_eq_getElem?_getD, add_comm (3 * r), List.getElem?_eq_getElem hlt,
        Option.getD_some] using this
  mds := by
    refine ⟨fun i j => I.fromDecimal ((k256Mds.getD i []).getD j 0), rfl, fun i j => ?_⟩
    exact fromDecimal_rel hI _


/-- The parameters a list of constants over a field stands for. -/
def PoseidonConstants.params {F : Type} [Field F] (k : PoseidonConstants F) : PoseidonParams F where
  rf := k.numFullRounds
  rp := k.numPartialRounds
  rc r j := k.roundKeys.getD (3 * r + j) 0
  mds i j := (k.mds.getD i []).getD j 0

/-- The Rust hash on a fresh object is the Poseidon hash with its constants, for all constants with a
three by three matrix and enough round keys; it consumes three keys per round. -/
theorem native_hash {F : Type} [Field F] (k : PoseidonConstants F) (hm : k.mds.length = 3)
    (hr : ∀ row ∈ k.mds, row.length = 3)
    (hk : 3 * (2 * (k.numFullRounds / 2) + k.numPartialRounds) ≤ k.roundKeys.length) (a b : F) :
    ∃ o, (Poseidon.new (.exact F) k).hash (.exact F) a b = .ok (k.params.hash a b, o) ∧
      o.pos = 3 * (2 * (k.numFullRounds / 2) + k.numPartialRounds) ∧ o.constants = k := by
  have hrel : KRel (· = ·) k k.params := by
    refine ⟨rfl, rfl, fun r h j => ?_, ?_⟩
    · have hlt : (j : ℕ) + 3 * r < k.roundKeys.length := by
        have : r < 2 * (k.numFullRounds / 2) + k.numPartialRounds := h
        omega
      refine ⟨_, List.getElem?_eq_getElem hlt, ?_⟩
      simp [PoseidonConstants.params, add_comm (3 * r), hlt]
    · refine ⟨fun i j => (k.mds.getD i []).getD j 0, ?_, fun _ _ => rfl⟩
      obtain ⟨r0, r1, r2, he⟩ := List.length_eq_three.mp hm
      have h0 := hr r0 (by simp [he])
      have h1 := hr r1 (by simp [he])
      have h2 := hr r2 (by simp [he])
      obtain ⟨a0, a1, a2, rfl⟩ := List.length_eq_three.mp h0
      obtain ⟨b0, b1, b2, rfl⟩ := List.length_eq_three.mp h1
      obtain ⟨c0, c1, c2, rfl⟩ := List.length_eq_three.mp h2
      simp [he]
  obtain ⟨h, o, e, hh, hp, hc⟩ := hash_rel (exact_computes F) (o := Poseidon.new (.exact F) k) hrel rfl
    (a := a) (b := b) rfl rfl
  exact ⟨o, by rw [e, hh], hp, hc⟩

/-- The exported hash never panics and computes Poseidon with the constants of `k256_consts.rs`, on
limbs: this includes Montgomery arithmetic and the parsing of the decimal constants. -/
theorem k256_hash_correct {a b : Limbs} {x y : ZMod secpP} (ha : a.Rep secpP x) (hb : b.Rep secpP y) :
    ∃ h, k256Hash FieldImpl.secp a b = .ok h ∧ h.Rep secpP ((k256Params (ZMod secpP)).hash x y) := by
  haveI := FieldCode.secp.prime
  obtain ⟨h, o, e, hh, -, -⟩ := hash_rel secp_computes
    (o := Poseidon.new FieldImpl.secp (k256Constants FieldImpl.secp)) (k256Constants_rel secp_computes) rfl
    ha hb
  refine ⟨h, ?_, hh⟩
  simp only [k256Hash, e]
  rfl

/-! ### C47: reuse of a hasher -/

/-- `poseidon_k256::hash` uses each of the 192 round constants exactly once: its object ends with the
position at the end of the list. -/
theorem k256_hash_uses_all {α F : Type} [Field F] {I : FieldImpl α} {R : α → F → Prop}
    (hI : I.Computes R) {a b : α} {x y : F} (ha : R a x) (hb : R b y) :
    ∃ h o, (Poseidon.new I (k256Constants I)).hash I a b = .ok (h, o) ∧
      o.pos = 192 ∧ o.constants.roundKeys.length = 192 := by
  obtain ⟨h, o, e, -, hp, hc⟩ := hash_rel hI (o := Poseidon.new I (k256Constants I))
    (k256Constants_rel hI) rfl ha hb
  refine ⟨h, o, e, ?_, ?_⟩
  · rw [hp]; norm_num [k256Params, k256NumFullRounds, k256NumPartialRounds]
  · rw [hc]
    show (k256RoundConstants.map I.fromDecimal).length = 192
    rw [List.length_map]; decide +kernel

theorem fullRound_out_of_keys {α : Type} (I : FieldImpl α) (o : Poseidon α)
    (h : o.constants.roundKeys.length ≤ o.pos) : o.fullRound I = .error .panic := by
  have : elemAt o.constants.roundKeys (0 + o.pos) = .error .panic := by
    simp [elemAt, List.getElem?_eq_none (by omega : o.constants.roundKeys.length ≤ o.pos)]
  simp only [Poseidon.fullRound, Poseidon.addConstants, this]
  rfl

/-- C47 fails for the `Poseidon` object: `hash` does not reset the position, so a second call on the
same object always panics. -/
theorem hash_twice_panics {α F : Type} [Field F] {I : FieldImpl α} {R : α → F → Prop}
    (hI : I.Computes R) {a b : α} {x y : F} (ha : R a x) (hb : R b y) (c d : α) :
    ∃ h o, (Poseidon.new I (k256Constants I)).hash I a b = .ok (h, o) ∧
      o.hash I c d = .error .panic := by
  obtain ⟨h, o, e, -, hp, hc⟩ := hash_rel hI (o := Poseidon.new I (k256Constants I))
    (k256Constants_rel hI) rfl ha hb
  refine ⟨h, o, e, ?_⟩
  have h4 : o.constants.numFullRounds / 2 = 3 + 1 := by
    rw [hc]; show k256NumFullRounds / 2 = 4; decide
  have := fullRound_out_of_keys I { o with s0 := I.fromU64 3, s1 := c, s2 := d } (by
    show o.constants.roundKeys.length ≤ o.pos
    rw [hp, hc]
    show (k256RoundConstants.map I.fromDecimal).length ≤ _
    rw [List.length_map]
    norm_num [k256Params, k256NumFullRounds, k256NumPartialRounds]
    decide +kernel)
  simp only [Poseidon.hash, h4, Poseidon.times, this]
  rfl

attribute [local irreducible] k256Hash PoseidonParams.hash

/-- C47 for the exported function, which builds a new object for every call: in every sequence of
calls each result is the hash of that call's input. -/
theorem k256_hash_history_partial (calls : List (Limbs × Limbs × ZMod secpP × ZMod secpP))
    (hc : ∀ c ∈ calls, c.1.Rep secpP c.2.2.1 ∧ c.2.1.Rep secpP c.2.2.2) :
    haveI := FieldCode.secp.prime
    ∃ hs, calls.mapM (fun c => k256Hash FieldImpl.secp c.1 c.2.1) = .ok hs ∧
      List.Forall₂ (fun h c => Limbs.Rep secpP h ((k256Params (ZMod secpP)).hash c.2.2.1 c.2.2.2))
        hs calls := by
  induction calls with
  | nil => exact ⟨[], rfl, .nil⟩
  | cons c cs ih =>
    obtain ⟨hs, e, f⟩ := ih (fun c' h => hc c' (by simp [h]))
    obtain ⟨h, e', hr⟩ := k256_hash_correct (hc c (by simp)).1 (hc c (by simp)).2
    refine ⟨h :: hs, ?_, .cons hr f⟩
    rw [List.mapM_cons, e', e]; rfl

/-- Non-vacuity: every field element has a representation, for instance 5 and 7. -/
example : ∃ h, k256Hash FieldImpl.secp (paramsP.fromU64 5) (paramsP.fromU64 7) = .ok h ∧
    h.Rep secpP (haveI := FieldCode.secp.prime; (k256Params (ZMod secpP)).hash 5 7) := by
  have h5 := (field_reductions .secp).2.2 5
  have h7 := (field_reductions .secp).2.2 7
  exact k256_hash_correct h5 h7

/-! ### The wasm function -/

theorem wasm_core {A B : Option Limbs} {c : Prop} [Decidable c] {f : Limbs → Limbs → Out Limbs}
    {t : Limbs → List UInt8} {out : List UInt8} :
    (do
      check c
      let a ← unwrap A
      let b ← unwrap B
      let r ← f a b
      pure (t r) : Out (List UInt8)) = .ok out ↔
      c ∧ ∃ a b r, A = some a ∧ B = some b ∧ f a b = .ok r ∧ out = t r := by
  by_cases hc : c
  swap
  · simp only [check, hc, if_false, false_and, iff_false]
    intro h; cases h
  cases A with
  | none =>
    simp only [check, hc, if_true, true_and]
    constructor
    · intro h; cases h
    · rintro ⟨a, b, r, h, -⟩; cases h
  | some a =>
    cases B with
    | none =>
      simp only [check, hc, if_true, true_and]
      constructor
      · intro h; cases h
      · rintro ⟨a, b, r, -, h, -⟩; cases h
    | some b =>
      simp only [check, hc, if_true, true_and, unwrap]
      cases hf : f a b with
      | error e =>
        constructor
        · intro h
          simp only [bind, Except.bind, hf] at h
          cases h
        · rintro ⟨a', b', r, h1, h2, h3, -⟩
          cases h1; cases h2; rw [hf] at h3; cases h3
      | ok r =>
        constructor
        · intro h
          simp only [bind, Except.bind, hf, pure, Except.pure] at h
          exact ⟨a, b, r, rfl, rfl, hf, (Except.ok.inj h).symm⟩
        · rintro ⟨a', b', r', h1, h2, h3, h4⟩
          cases h1; cases h2; rw [hf] at h3; cases h3
          simp only [bind, Except.bind, hf, pure, Except.pure, h4]

/-- `poseidon` of the wasm interface returns exactly when it is given two little-endian encodings of
canonical field elements, and then returns the little-endian encoding of their hash.  In all other
cases it panics. -/
theorem wasm_poseidon_iff (bs out : List UInt8) :
    haveI := FieldCode.secp.prime
    wasmPoseidon bs = .ok out ↔ bs.length = 64 ∧ leNat (bs.take 32) < secpP ∧
      leNat (bs.drop 32) < secpP ∧
      out = leBytes 32 ((k256Params (ZMod secpP)).hash (leNat (bs.take 32) : ZMod secpP)
        (leNat (bs.drop 32) : ZMod secpP)).val := by
  haveI := FieldCode.secp.prime
  rw [wasmPoseidon, wasm_core]
  refine and_congr_right fun hl => ?_
  have l1 : (bs.take 32).length = 32 := by simp [hl]
  have l2 : (bs.drop 32).length = 32 := by simp [hl]
  have ht : (bs.drop 32).take 32 = bs.drop 32 := List.take_of_length_le (by omega)
  obtain ⟨i1, r1⟩ := field_from_bytes .secp l1
  obtain ⟨i2, r2⟩ := field_from_bytes .secp l2
  rw [ht]
  constructor
  · rintro ⟨a, b, r, ha, hb, hr, ho⟩
    refine ⟨i1.mp ⟨a, ha⟩, i2.mp ⟨b, hb⟩, ?_⟩
    obtain ⟨h, e, hr'⟩ := k256_hash_correct (r1 a ha).1 (r2 b hb).1
    rw [hr] at e
    rw [ho, Except.ok.inj e]
    exact MParams.toBytes_eq FieldCode.secp.valid hr'
  · rintro ⟨h1, h2, ho⟩
    obtain ⟨a, ha⟩ := i1.mpr h1
    obtain ⟨b, hb⟩ := i2.mpr h2
    obtain ⟨h, e, hr'⟩ := k256_hash_correct (r1 a ha).1 (r2 b hb).1
    refine ⟨a, b, h, ha, hb, e, ?_⟩
    rw [ho]
    exact (MParams.toBytes_eq FieldCode.secp.valid hr').symm

end Spartan
