import Verif.Model.Prover
import Verif.Props.Tree
import Verif.Props.Bincode

/-!
C83–C85: the prover of the TypeScript library.
-/

set_option exponentiation.threshold 2000

namespace Spartan
open Spec MParams Lib

attribute [local irreducible] poseidonNat k256Hash PoseidonParams.hash wasmPoseidon poseidonHash

/-! ### C83: signatures -/

theorem fromSig_of {sig a b : List UInt8} {v r s : ℕ} (h : fromRpcSig sig = some (a, b, v))
    (ha : bytesToBigInt a = some r) (hb : bytesToBigInt b = some s) : fromSig sig = some (r, s, v) := by
  unfold fromSig
  rw [h]
  simp only [Option.bind_eq_bind, Option.bind_some, ha, hb]
  rfl

/-- C83: 65 bytes are read as `r`, `s` and `v`, where 0 and 1 stand for 27 and 28. -/
theorem sig_full {r s : ℕ} (hr : r < 2 ^ 256) (hs : s < 2 ^ 256) (v : UInt8) :
    fromSig (beBytes 32 r ++ beBytes 32 s ++ [v]) =
      some (r, s, if v.toNat < 27 then v.toNat + 27 else v.toNat) := by
  have lr := beBytes_length 32 r
  have ls := beBytes_length 32 s
  have e1 : slice (beBytes 32 r ++ beBytes 32 s ++ [v]) 0 32 = beBytes 32 r := by
    have := slice_mid (a := []) (b := beBytes 32 r) (c := beBytes 32 s ++ [v]) (i := 0) (j := 32) rfl (by rw [lr]; rfl)
    rwa [List.nil_append, ← List.append_assoc] at this
  have e2 : slice (beBytes 32 r ++ beBytes 32 s ++ [v]) 32 64 = beBytes 32 s := slice_mid lr (by rw [lr, ls])
  have e3 : (beBytes 32 r ++ beBytes 32 s ++ [v]).drop 64 = [v] :=
    List.drop_left' (by rw [List.length_append, lr, ls])
  refine fromSig_of (a := beBytes 32 r) (b := beBytes 32 s) ?_ (bytesToBigInt_be hr) (bytesToBigInt_be hs)
  unfold fromRpcSig
  simp only
  rw [if_pos (by rw [List.length_append, List.length_append, lr, ls]; rfl), e1, e2, e3]
  simp [leNat]

theorem beBytes_cons (n x : ℕ) : beBytes (n + 1) x = UInt8.ofNat (x / 256 ^ n) :: beBytes n x := by
  induction n generalizing x with
  | zero => simp [beBytes, leBytes]
  | succ n ih =>
    have h := ih (x / 256)
    unfold beBytes at h ⊢
    rw [leBytes, List.reverse_cons, h, leBytes, List.reverse_cons, List.cons_append, Nat.div_div_eq_div_mul,
      ← pow_succ']

/-- C83: the compact form of 64 bytes, with the parity in the top bit of `s`, is read like the full form. -/
theorem sig_compact {r s y : ℕ} (hr : r < 2 ^ 256) (hs : s < 2 ^ 255) (hy : y < 2) :
    fromSig (beBytes 32 r ++ beBytes 32 (s + y * 2 ^ 255)) = some (r, s, 27 + y) ∧
      fromSig (beBytes 32 r ++ beBytes 32 (s + y * 2 ^ 255)) =
        fromSig (beBytes 32 r ++ beBytes 32 s ++ [UInt8.ofNat (27 + y)]) := by
  have hs' : s < 2 ^ 256 := hs.trans (by norm_num)
  have lr := beBytes_length 32 r
  have ls := beBytes_length 32 (s + y * 2 ^ 255)
  have e1 : slice (beBytes 32 r ++ beBytes 32 (s + y * 2 ^ 255)) 0 32 = beBytes 32 r := by
    have := slice_mid (a := []) (b := beBytes 32 r) (c := beBytes 32 (s + y * 2 ^ 255)) (i := 0) (j := 32) rfl
      (by rw [lr]; rfl)
    rwa [List.nil_append] at this
  have e2 : slice (beBytes 32 r ++ beBytes 32 (s + y * 2 ^ 255)) 32 64 = beBytes 32 (s + y * 2 ^ 255) := by
    have := slice_mid (a := beBytes 32 r) (b := beBytes 32 (s + y * 2 ^ 255)) (c := []) (i := 32) (j := 64) lr
      (by rw [lr, ls])
    rwa [List.append_nil] at this
  obtain ⟨t, ht⟩ : ∃ t, t = s / 256 ^ 31 := ⟨_, rfl⟩
  have ht128 : t < 128 := by
    rw [ht, Nat.div_lt_iff_lt_mul (by norm_num)]
    calc s < 2 ^ 255 := hs
      _ = 128 * 256 ^ 31 := by norm_num
  have htop : (s + y * 2 ^ 255) / 256 ^ 31 = t + 128 * y := by
    rw [show y * 2 ^ 255 = 256 ^ 31 * (128 * y) by
      rw [show (2 : ℕ) ^ 255 = 256 ^ 31 * 128 by norm_num]; ring, Nat.add_mul_div_left _ _ (by norm_num), ht]
  have hlow : beBytes 31 (s + y * 2 ^ 255) = beBytes 31 s := by
    unfold beBytes
    rw [show y * 2 ^ 255 = 256 ^ 31 * (128 * y) by
      rw [show (2 : ℕ) ^ 255 = 256 ^ 31 * 128 by norm_num]; ring, leBytes_add]
  have hbytes : beBytes 32 (s + y * 2 ^ 255) = UInt8.ofNat (t + 128 * y) :: beBytes 31 s := by
    rw [beBytes_cons, htop, hlow]
  have hmask : ∀ t < 128, ∀ y < 2, UInt8.ofNat (t + 128 * y) &&& 0x7f = UInt8.ofNat t ∧
      (UInt8.ofNat (t + 128 * y)).toNat >>> 7 = y := by decide +kernel
  have h1 : fromSig (beBytes 32 r ++ beBytes 32 (s + y * 2 ^ 255)) = some (r, s, 27 + y) := by
    refine fromSig_of (a := beBytes 32 r) (b := beBytes 32 s) ?_ (bytesToBigInt_be hr) (bytesToBigInt_be hs')
    unfold fromRpcSig
    simp only
    rw [if_neg (by rw [List.length_append, lr, ls]; norm_num), if_pos (by rw [List.length_append, lr, ls]), e1, e2,
      hbytes, List.headD_cons, List.drop_succ_cons, List.drop_zero, (hmask t ht128 y hy).1, (hmask t ht128 y hy).2,
      if_pos (by omega), beBytes_cons 31 s, ← ht, add_comm y]
  refine ⟨h1, h1.trans ?_⟩
  rw [sig_full hr hs', UInt8.toNat_ofNat', Nat.mod_eq_of_lt (by omega), if_neg (by omega)]

/-- C83: fewer than 64 bytes throw. -/
theorem sig_short {sig : List UInt8} (h : sig.length < 64) : fromSig sig = none := by
  unfold fromSig fromRpcSig
  simp only
  rw [if_neg (by omega), if_neg (by omega)]
  rfl

/-- C83 is false of longer strings: they are not rejected, `v` is what follows `s` as one number. -/
theorem sig_long {r s : ℕ} (hr : r < 2 ^ 256) (hs : s < 2 ^ 256) {rest : List UInt8} (h : rest ≠ []) :
    ∃ v, fromSig (beBytes 32 r ++ beBytes 32 s ++ rest) = some (r, s, v) := by
  have lr := beBytes_length 32 r
  have ls := beBytes_length 32 s
  have hpos := List.length_pos_iff.2 h
  have e1 : slice (beBytes 32 r ++ beBytes 32 s ++ rest) 0 32 = beBytes 32 r := by
    have := slice_mid (a := []) (b := beBytes 32 r) (c := beBytes 32 s ++ rest) (i := 0) (j := 32) rfl (by rw [lr]; rfl)
    rwa [List.nil_append, ← List.append_assoc] at this
  have e2 : slice (beBytes 32 r ++ beBytes 32 s ++ rest) 32 64 = beBytes 32 s := slice_mid lr (by rw [lr, ls])
  have hd : fromRpcSig (beBytes 32 r ++ beBytes 32 s ++ rest) =
      some (beBytes 32 r, beBytes 32 s, if leNat rest.reverse < 27 then leNat rest.reverse + 27 else leNat rest.reverse) := by
    unfold fromRpcSig
    simp only
    rw [if_pos (by rw [List.length_append, List.length_append, lr, ls]; omega), e1, e2,
      List.drop_left' (by rw [List.length_append, lr, ls])]
  exact ⟨_, fromSig_of hd (bytesToBigInt_be hr) (bytesToBigInt_be hs)⟩

/-- The hypotheses of C83 can be met: the two forms of the same signature. -/
example : fromSig (beBytes 32 7 ++ beBytes 32 (9 + 1 * 2 ^ 255)) = some (7, 9, 28) ∧
    fromSig (beBytes 32 7 ++ beBytes 32 9 ++ [28]) = some (7, 9, 28) ∧
    fromSig (beBytes 32 7 ++ beBytes 32 9 ++ [1]) = some (7, 9, 28) ∧ fromSig [1, 2, 3] = none := by
  refine ⟨(sig_compact (by norm_num) (by norm_num) (by norm_num)).1, ?_, ?_, sig_short (by norm_num)⟩ <;>
    (rw [sig_full (by norm_num) (by norm_num)]; rfl)

/-! ### C84: what the prover computes from a signature -/

/-- `(r, s)` is an ECDSA signature of `m` by the key `Q` with nonce point `R`, whose x-coordinate is `r`
and whose y-coordinate has the given parity. -/
def SignedWith (Q R : Secp) (m : ZMod secpN) (r s : ℕ) (odd : Bool) : Prop :=
  (s : ZMod secpN) ≠ 0 ∧ (r : ZMod secpN) ≠ 0 ∧
    (m * (s : ZMod secpN)⁻¹) • basePoint + ((r : ZMod secpN) * (s : ZMod secpN)⁻¹) • Q = R ∧ IsLift R r odd

/-- Every such signature verifies in the usual sense. -/
theorem signedWith_verifies {Q R : Secp} {m : ZMod secpN} {r s : ℕ} {odd : Bool} (hr : r < secpP)
    (h : SignedWith Q R m r s odd) : EcdsaVerify basePoint Q m (r : ZMod secpN) (s : ZMod secpN) := by
  obtain ⟨h1, h2, h3, b, hb, h4, -⟩ := h
  refine ⟨h1, h2, _, b, hb, h3.trans h4, ?_⟩
  rw [ZMod.val_natCast, Nat.mod_eq_of_lt hr]

/-- Conversely, up to the case that the x-coordinate of the nonce point is not below the group order,
every signature that verifies has a nonce point and a parity. -/
theorem verifies_signedWith {Q : Secp} {m : ZMod secpN} {r s : ℕ} (hr : r < secpN)
    (h : EcdsaVerify basePoint Q m (r : ZMod secpN) (s : ZMod secpN)) :
    (∃ R odd, SignedWith Q R m r s odd) ∨
      ∃ (a b : ZMod secpP) (h : (koblitz (ZMod secpP)).Nonsingular a b),
        (m * (s : ZMod secpN)⁻¹) • basePoint + ((r : ZMod secpN) * (s : ZMod secpN)⁻¹) • Q = .some a b h ∧
          secpN ≤ a.val := by
  obtain ⟨h1, h2, a, b, hab, h3, h4⟩ := h
  rcases Nat.lt_or_ge a.val secpN with hlt | hge
  · left
    have e : a.val = r := by
      have := congrArg ZMod.val h4
      rwa [ZMod.val_natCast, ZMod.val_natCast, Nat.mod_eq_of_lt hlt, Nat.mod_eq_of_lt hr] at this
    have hra : (r : ZMod secpP) = a := by rw [← e, ZMod.natCast_zmod_val]
    refine ⟨_, decide (b.val % 2 = 1), h1, h2, rfl, b, by rw [hra]; exact hab, ?_, by simp⟩
    rw [h3]
    congr 1
    exact hra.symm
  · exact .inr ⟨a, b, hab, h3, hge⟩

theorem hasCoords_of_ne {P : Secp} (h : P ≠ 0) : HasCoords P (xy P).1.val (xy P).2.val := by
  cases P with
  | zero => exact absurd rfl h
  | some a b hab => exact ⟨a, b, hab, rfl, rfl, rfl⟩

theorem smul_nonce {F M : Type} [Field F] [AddCommGroup M] [Module F M] {s : F} (m r : F) (G Q : M) (hs : s ≠ 0) :
    s • ((m * s⁻¹) • G + (r * s⁻¹) • Q) = m • G + r • Q := by
  rw [smul_add, smul_smul, smul_smul, mul_comm m, mul_comm r, ← mul_assoc, ← mul_assoc, mul_inv_cancel₀ hs, one_mul,
    one_mul]

theorem zero_nonce {F M : Type} [Field F] [AddCommGroup M] [Module F M] {r m : F} (G Q : M) (hr : r ≠ 0) (hm : m = 0) :
    (m * r⁻¹) • G + (r * r⁻¹) • Q = Q := by
  rw [hm, zero_mul, zero_smul, zero_add, mul_inv_cancel₀ hr, one_smul]

theorem neg_mul_zero_of {F : Type} [Field F] (a : F) {m : F} (h : m = 0) : -(a * m) = 0 := by
  rw [h, mul_zero, neg_zero]

/-- The message hash as a number modulo the group order. -/
def msgNum (msgHash : List UInt8) : ZMod secpN := (leNat msgHash.reverse : ZMod secpN)

/-- The point `r⁻¹ R`. -/
noncomputable def effT (r : ℕ) (R : Secp) : Secp := ((r : ZMod secpN)⁻¹) • R

/-- The point `-(r⁻¹ m) G`. -/
noncomputable def effU (r : ℕ) (m : ZMod secpN) : Secp := (-((r : ZMod secpN)⁻¹ * m)) • basePoint

theorem computeEff_eq {R : Secp} {r v : ℕ} {msgHash : List UInt8} (hR : IsLift R r (decide (v % 2 = 0)))
    (hr : (r : ZMod secpN) ≠ 0) (hm : msgNum msgHash ≠ 0) :
    effT r R ≠ 0 ∧ effU r (msgNum msgHash) ≠ 0 ∧ computeEffEcdsaPubInput r v msgHash =
      some ((xy (effT r R)).1.val, (xy (effT r R)).2.val, (xy (effU r (msgNum msgHash))).1.val,
        (xy (effU r (msgNum msgHash))).2.val) := by
  have hR0 : R ≠ 0 := by
    obtain ⟨b, hb, rfl, -⟩ := hR
    exact WeierstrassCurve.Affine.Point.some_ne_zero _
  have hT0 : effT r R ≠ 0 := smul_ne_zero (inv_ne_zero hr) hR0
  have hU0 : effU r (msgNum msgHash) ≠ 0 := smul_ne_zero (neg_ne_zero.2 (mul_ne_zero (inv_ne_zero hr) hm))
    (WeierstrassCurve.Affine.Point.some_ne_zero _)
  refine ⟨hT0, hU0, ?_⟩
  have hT : ((r : ZMod secpN)⁻¹).val • R = effT r R := by
    rw [← secp_smul_nat, ZMod.natCast_zmod_val]
    rfl
  have hU : (-((((r : ZMod secpN)⁻¹).val * leNat msgHash.reverse : ℕ) : ZMod secpN)).val • basePoint =
      effU r (msgNum msgHash) := by
    rw [← secp_smul_nat, ZMod.natCast_zmod_val, Nat.cast_mul, ZMod.natCast_zmod_val]
    rfl
  unfold computeEffEcdsaPubInput
  simp only [hU]
  rw [pointFromX_iff.2 hR]
  simp only [Option.bind_eq_bind, Option.bind_some, hT]
  rw [coords_iff.2 (hasCoords_of_ne hT0), coords_iff.2 (hasCoords_of_ne hU0)]
  rfl

theorem proverInputs_some {sig msgHash : List UInt8} {mp : MerkleProof} {r s v : ℕ} {c : ℕ × ℕ × ℕ × ℕ}
    (hsig : fromSig sig = some (r, s, v)) (hc : computeEffEcdsaPubInput r v msgHash = some c) :
    proverInputs sig msgHash mp = some (⟨s, mp.root, mp.siblings, mp.pathIndices, c.1, c.2.1, c.2.2.1, c.2.2.2⟩,
      ⟨r, v, msgHash, ⟨mp.root, c.1, c.2.1, c.2.2.1, c.2.2.2⟩⟩) := by
  unfold proverInputs
  generalize computeEffEcdsaPubInput = f at hc ⊢
  rw [hsig]
  refine (Option.bind_some _ _).trans ?_
  change f r v msgHash >>= _ = _
  rw [hc]
  rfl

theorem proverInputs_none {sig msgHash : List UInt8} {mp : MerkleProof}
    (h : ∀ r v, computeEffEcdsaPubInput r v msgHash = none) : proverInputs sig msgHash mp = none := by
  unfold proverInputs
  generalize computeEffEcdsaPubInput = f at h ⊢
  cases fromSig sig with
  | none => rfl
  | some x =>
    refine (Option.bind_some _ _).trans ?_
    change f x.1 x.2.2 msgHash >>= _ = _
    rw [h]
    rfl

/-- C84: from a signature of a message by the key `Q` the prover computes the points `T` and `U` with
`Q = s T + U`, passes `s`, the points and the Merkle proof on to the witness generator, and builds a public
input that the check of the verifier accepts and that survives serialization. -/
theorem prover_inputs {Q R : Secp} {r s v : ℕ} {sig msgHash : List UInt8} {mp : MerkleProof} (hr : r < secpN)
    (hv : v < 256) (hsig : fromSig sig = some (r, s, v)) (hm : msgNum msgHash ≠ 0)
    (hS : SignedWith Q R (msgNum msgHash) r s (decide (v % 2 = 0))) :
    let T := effT r R
    let U := effU r (msgNum msgHash)
    let p : PublicInput := ⟨r, v, msgHash, ⟨mp.root, (xy T).1.val, (xy T).2.val, (xy U).1.val, (xy U).2.val⟩⟩
    T ≠ 0 ∧ U ≠ 0 ∧ Q = s • T + U ∧
      proverInputs sig msgHash mp = some (⟨s, mp.root, mp.siblings, mp.pathIndices, (xy T).1.val, (xy T).2.val,
        (xy U).1.val, (xy U).2.val⟩, p) ∧
      verifyEffEcdsaPubInput p = some true ∧
      (mp.root < 2 ^ 256 → ∃ bs, p.serialize = some bs ∧ PublicInput.deserialize bs = some p) := by
  intro T U p
  obtain ⟨h1, h2, h3, hR⟩ := hS
  obtain ⟨hT0, hU0, he⟩ := computeEff_eq hR h2 hm
  have hQ : Q = s • T + U := by
    rw [← secp_smul_nat]
    refine (eff_ecdsa_iff h2).mpr ?_
    rw [← h3]
    exact smul_nonce _ _ _ _ h1
  refine ⟨hT0, hU0, hQ, proverInputs_some hsig he, ?_, fun hroot => ?_⟩
  · exact verify_pub_input_iff.mpr ⟨R, hR, hasCoords_of_ne hT0, hasCoords_of_ne hU0⟩
  · have hlt : ∀ x : ZMod secpP, x.val < 2 ^ 256 := fun x => (ZMod.val_lt x).trans secpP_lt_256
    have hN : secpN < 2 ^ 256 := by decide +kernel
    have hr' : r < 2 ^ 256 := hr.trans hN
    obtain ⟨bs, b1, -, b2⟩ := pub_input_roundtrip (p := p) hr' hv ⟨hroot, hlt _, hlt _, hlt _, hlt _⟩
    exact ⟨bs, b1, b2⟩

/-- C84 is false of message hashes that are a multiple of the group order: prover and verifier throw, for
every signature. -/
theorem zero_hash_throws {sig msgHash : List UInt8} (hm : msgNum msgHash = 0) (mp : MerkleProof) :
    proverInputs sig msgHash mp = none ∧
      ∀ r v c, verifyEffEcdsaPubInput ⟨r, v, msgHash, c⟩ = none := by
  have hw : ∀ r v, computeEffEcdsaPubInput r v msgHash = none := by
    intro r v
    have hU : (-((((r : ZMod secpN)⁻¹).val * leNat msgHash.reverse : ℕ) : ZMod secpN)).val • basePoint = 0 := by
      rw [Nat.cast_mul, neg_mul_zero_of _ (show (leNat msgHash.reverse : ZMod secpN) = 0 from hm), ZMod.val_zero,
        zero_nsmul]
    unfold computeEffEcdsaPubInput
    simp only [hU]
    cases pointFromX r (decide (v % 2 = 0)) with
    | none => rfl
    | some R =>
      simp only [Option.bind_eq_bind, Option.bind_some]
      cases coords (((r : ZMod secpN)⁻¹).val • R) with
      | none => rfl
      | some c => simp only [Option.bind_some, show coords 0 = none from rfl, Option.bind_none]
  constructor
  · exact proverInputs_none hw
  · intro r v c
    unfold verifyEffEcdsaPubInput
    simp only
    rw [hw]
    rfl

/-- A valid signature of such a message: the prover throws although the signature verifies. -/
theorem zero_hash_signature :
    ∃ (sig : List UInt8) (r s v : ℕ), fromSig sig = some (r, s, v) ∧ r < secpN ∧
      (∃ R, SignedWith basePoint R (msgNum (List.replicate 32 0)) r s (decide (v % 2 = 0))) ∧
      EcdsaVerify basePoint basePoint (msgNum (List.replicate 32 0)) (r : ZMod secpN) (s : ZMod secpN) ∧
      ∀ mp, proverInputs sig (List.replicate 32 0) mp = none := by
  have hlt : Koblitz.secpGx < 2 ^ 256 := by decide +kernel
  have hr : ((Koblitz.secpGx : ℕ) : ZMod secpN) ≠ 0 := by
    intro h
    rw [ZMod.natCast_eq_zero_iff] at h
    exact absurd h (by decide +kernel)
  have hm : msgNum (List.replicate 32 0) = 0 := by
    have : leNat (List.replicate 32 (0 : UInt8)).reverse = 0 := by decide +kernel
    rw [msgNum, this, Nat.cast_zero]
  have hS : SignedWith basePoint basePoint (msgNum (List.replicate 32 0)) Koblitz.secpGx Koblitz.secpGx
      (decide (27 % 2 = 0)) := by
    refine ⟨hr, hr, ?_, ⟨_, Koblitz.secpG_on, rfl, ?_⟩⟩
    · exact zero_nonce _ _ hr hm
    · rw [ZMod.val_natCast]
      decide +kernel
  refine ⟨beBytes 32 Koblitz.secpGx ++ beBytes 32 Koblitz.secpGx ++ [27], Koblitz.secpGx, Koblitz.secpGx, 27, ?_,
    by decide +kernel, ⟨_, hS⟩, signedWith_verifies (by decide +kernel) hS, fun mp => (zero_hash_throws hm mp).1⟩
  rw [sig_full hlt hlt]
  rfl

/-! ### C85: from a signature and a tree to an accepted proof -/

/-- The circuit holds of the inputs, with the values the witness generator of the circuit computes for the
hints and the key `(X, Y)`. -/
def HonestInputs (d : ℕ) (w : WitnessInput) (X Y : ZMod secpP) : Prop :=
  ∃ kBits, Circuit.KHonest (w.s : ZMod secpP) kBits ∧
    Circuit.PubKeyMembershipWith d (w.s : ZMod secpP) (w.root : ZMod secpP) (w.Tx : ZMod secpP) (w.Ty : ZMod secpP)
      (w.Ux : ZMod secpP) (w.Uy : ZMod secpP) (fun k => (w.pathIndices.getD k 0 : ℕ))
      (fun k => ((w.siblings.getD k none).getD 0 : ℕ)) kBits X Y

/-- What is assumed of the compiled circuit and its witness generator, which are not in the repository:
for inputs of which the circuit holds the generator writes a file with the values `values w`, which satisfy
the constraints. -/
def WitnessGenOk (d : ℕ) (digest : R1CS (ZMod secpP) → List UInt8) (r : CircomR1CS)
    (values : WitnessInput → List ℕ) (witnessGen : WitnessInput → Option (List UInt8)) : Prop :=
  ∀ w X Y, HonestInputs d w X Y → ∃ version prime,
    witnessGen w = some (encWtns version prime (32 * (values w).length) (values w)) ∧ version ≤ 2 ∧
    prime.length = 32 ∧ (values w).length < 2 ^ 27 ∧ (values w).length = r.numVariables ∧
    (∀ x ∈ values w, x < secpP) ∧
    ConsHold (coefVal (secpCodec digest)) (r.constraints.map toCon) ((values w).map fun w : ℕ => (w : ZMod secpP))

theorem prove_of {witnessGen : WitnessInput → Option (List UInt8)} {wp : List UInt8 → List UInt8 → Out (List UInt8)}
    {sig msgHash : List UInt8} {mp : MerkleProof} {w : WitnessInput} {p : PublicInput} {wit bs proof : List UInt8}
    (h1 : proverInputs sig msgHash mp = some (w, p)) (h2 : witnessGen w = some wit)
    (h3 : p.circuitPubInput.serialize = some bs) (h4 : wp wit bs = .ok proof) :
    Lib.prove witnessGen wp sig msgHash mp = some (proof, p) := by
  unfold Lib.prove
  rw [h1]
  refine (Option.bind_some _ _).trans ?_
  change witnessGen w >>= _ = _
  rw [h2]
  refine (Option.bind_some _ _).trans ?_
  change p.circuitPubInput.serialize >>= _ = _
  rw [h3]
  refine (Option.bind_some _ _).trans ?_
  change (match wp wit bs with | .ok proof => pure (proof, p) | .error _ => none) = _
  rw [h4]
  rfl

theorem tree_root_lt {d : ℕ} (h1 : 1 ≤ d) (h32 : d ≤ 32) {ops : List TreeOp} (hops : FieldLeaves ops)
    {t : MerkleTree} {b : List Bool} (ht : treeAfter d ops = some (t, b)) : t.root < secpP := by
  obtain ⟨u, eu, hu, hL⟩ := treeAfter_holds h1 h32 hops
  rw [ht, Option.some.injEq, Prod.mk.injEq] at eu
  rw [← eu.1] at hu
  rw [hu.root, merkleRoot]
  exact field_subtree hL d 0

/-- The number whose bits the hints of the circuit compute. -/
theorem honest_k {s k : ℕ} (hs : s < secpP) (hlow : ¬ (2 ^ 128 ≤ s + Circuit.tQlo ∧ s < 2 ^ 128)) (hk : k < 2 ^ 256)
    (h : ∀ kBits, Circuit.KHonest (s : ZMod secpP) kBits ↔ AreBits 256 k kBits) :
    k = (s + Circuit.tQ) % Circuit.q := by
  have hv : (s : ZMod secpP).val = s := by rw [ZMod.val_natCast, Nat.mod_eq_of_lt hs]
  have h0 : (s + Circuit.tQ) % Circuit.q < 2 ^ 256 :=
    (Nat.mod_lt _ (by decide +kernel)).trans (show Circuit.q < 2 ^ 256 by decide +kernel)
  have h1 : AreBits 256 ((s + Circuit.tQ) % Circuit.q)
      (fun i => if ((s + Circuit.tQ) % Circuit.q).testBit i then (1 : ZMod secpP) else 0) := fun i _ => rfl
  refine Circuit.areBits_unique hk h0 ((h _).1 ?_) h1
  rw [Circuit.kHonest_iff, hv, if_neg hlow]
  exact h1

/-- C85: a member of the tree with a signature gets a proof from the prover, and the verifier accepts it with
the serialized public input.  The exceptional cases are those of the signature circuit (`hlow`, `hz`, `hd`,
`Regular`), numbers whose bytes in reverse are not below the modulus (`hread`, `hswap`), and message hashes that
are a multiple of the group order. -/
theorem member_prove_verify_partial {sqrt : ZMod secpN → Option (ZMod secpN)} (hsq : SqrtSpec sqrt)
    {hash : Tr (ZMod secpP) EncPt → ZMod secpP} (hu : ∀ t, hash (t ++ [.chal "u"]) ≠ 0)
    {bits : ℕ} (h32 : 32 ≤ bits) (h64 : bits ≤ 64) {src : GenSrc Secq} {digest : R1CS (ZMod secpP) → List UInt8}
    {rc : CircomR1CS} (hrc : Convertible (secpCodec digest) rc) (hc : rc.constraints ≠ [])
    {I : Inst (ZMod secpP)} (hI : convertToSpartan (secpCodec digest) rc 5 = .ok I)
    (hok : (secqWire bits).okInst I) (hsz : I.inst.numVars ≤ 2 ^ 62)
    (label : List UInt8) (tr0 : Tr (ZMod secpP) EncPt) (tape : Tape (ZMod secpP))
    -- the tree and the proof
    {d : ℕ} (hd1 : 1 ≤ d) (hd32 : d ≤ 32) {ops : List TreeOp} (hops : FieldLeaves ops)
    {t : MerkleTree} {b : List Bool} (ht : treeAfter d ops = some (t, b)) {i : ℕ} {mp : MerkleProof}
    (hmp : t.createProof i = some mp)
    -- the witness generator
    {values : WitnessInput → List ℕ} {witnessGen : WitnessInput → Option (List UInt8)}
    (hgen : WitnessGenOk d digest rc values witnessGen)
    (hread : ∀ w X Y, HonestInputs d w X Y → ∀ x ∈ values w, Readable x)
    -- the key and the signature
    {Q R : Secp} {r s v : ℕ} {sig msgHash : List UInt8} (hr : r < secpN) (hs : s < secpN) (hv : v < 256)
    (hsig : fromSig sig = some (r, s, v)) (hm : msgNum msgHash ≠ 0)
    (hS : SignedWith Q R (msgNum msgHash) r s (decide (v % 2 = 0)))
    (hleaf : t.leaves[i]? = some (hashPubKey (beBytes 32 (xy Q).1.val ++ beBytes 32 (xy Q).2.val)))
    -- the exceptional cases
    (hlow : ¬ (2 ^ 128 ≤ s + Circuit.tQlo ∧ s < 2 ^ 128))
    (hz : ¬ FalseZero (s • effT r R) (effU r (msgNum msgHash))) (hd : s • effT r R ≠ effU r (msgNum msgHash))
    (hreg : Regular (effT r R) ((s + Circuit.tQ) % Circuit.q))
    (hswap : ∀ x ∈ [t.root, (xy (effT r R)).1.val, (xy (effT r R)).2.val, (xy (effU r (msgNum msgHash))).1.val,
      (xy (effU r (msgNum msgHash))).2.val], swapped x < secpP) :
    ∃ proof p ser,
      Lib.prove witnessGen (wasmProve ((secqWire bits).wasmEnv (secqEnvE sqrt hash) src (secpCodec digest)) label tr0
        tape ((secqWire bits).fInst.enc I)) sig msgHash mp = some (proof, p) ∧
      p.circuitPubInput.merkleRoot = t.root ∧ p.msgHash = msgHash ∧ p.serialize = some ser ∧
      Lib.verify (wasmVerify ((secqWire bits).wasmEnv (secqEnvE sqrt hash) src (secpCodec digest)) label tr0
        ((secqWire bits).fInst.enc I) proof) ser = some true := by
  obtain ⟨hT0, hU0, hQ, hin, hver, hser⟩ := prover_inputs (mp := mp) hr hv hsig hm hS
  generalize effT r R = T at *
  generalize effU r (msgNum msgHash) = U at *
  have hroot : mp.root = t.root := by
    unfold MerkleTree.createProof at hmp
    split_ifs at hmp
    rw [← Option.some.inj hmp]
  have hroot_lt : t.root < 2 ^ 256 := (tree_root_lt hd1 hd32 hops ht).trans secpP_lt_256
  have hsP : s < secpP := hs.trans (by decide +kernel)
  have hsv : ((s : ℕ) : ZMod secpP).val = s := by rw [ZMod.val_natCast, Nat.mod_eq_of_lt hsP]
  obtain ⟨k, hk, hkb, hmem⟩ := tree_member_proves_partial hd1 hd32 hops ht T U hT0 (s : ZMod secpP)
    (by rw [hsv]; exact hlow) (by rw [hsv]; exact hz) (by rw [hsv]; exact fun h => absurd h hd)
    (by rw [hsv, ← hQ]; exact hleaf) hmp
  obtain ⟨kBits, kb1, kb2⟩ := hmem (by rw [honest_k hsP hlow hk hkb]; exact hreg)
  have hh : HonestInputs d ⟨s, mp.root, mp.siblings, mp.pathIndices, (xy T).1.val, (xy T).2.val, (xy U).1.val,
      (xy U).2.val⟩ (xy ((s : ZMod secpP).val • T + U)).1 (xy ((s : ZMod secpP).val • T + U)).2 := ⟨kBits, kb1, by
    simp only [ZMod.natCast_zmod_val, hroot]
    exact kb2⟩
  obtain ⟨version, prime, hw, g1, g2, g3, g4, g5, g6⟩ := hgen _ _ _ hh
  obtain ⟨ser, hser1, hser2⟩ := hser (by rw [hroot]; exact hroot_lt)
  have hlt : ∀ x : ZMod secpP, x.val < 2 ^ 256 := fun x => (ZMod.val_lt x).trans secpP_lt_256
  have hfit : PubFits ⟨mp.root, (xy T).1.val, (xy T).2.val, (xy U).1.val, (xy U).2.val⟩ :=
    ⟨by rw [hroot]; exact hroot_lt, hlt _, hlt _, hlt _, hlt _⟩
  obtain ⟨pub, hb, hch⟩ := pub_input_chunks hfit
  have hlen : 5 * 32 ≤ pub.length := by
    obtain ⟨bs', hb', hl, -⟩ := circuit_pub_input_roundtrip hfit
    rw [hb] at hb'
    cases hb'
    omega
  obtain ⟨proof, hp1, hp2⟩ := wasm_prove_verify_secq hsq hu h32 h64 (src := src) hrc hc hI hok hsz hlen (by
    rw [hch, hroot]
    intro b hb
    simp only [List.mem_cons, List.not_mem_nil, or_false] at hb
    rcases hb with rfl | rfl | rfl | rfl | rfl <;> exact hswap _ (by simp)) g1 g2 g3 g4
    (fun x hx => ⟨hread _ _ _ hh x hx, g5 x hx⟩) g6 label tr0 tape
  exact ⟨proof, _, ser, prove_of hin hw hb hp1, hroot, rfl, hser1, lib_verify_iff.mpr ⟨_, pub, hser2, hver, hb, hp2⟩⟩

end Spartan
