import Verif.Lemmas.Address
import Verif.Model.AddrMembership
import Verif.Props.Membership

/-!
C58: the Keccak circuit computes Keccak and the address circuits compute Ethereum addresses; the
membership circuit for addresses.
-/

namespace Spartan.Circuit
open Spartan.Spec Spartan.Spec.Keccak

/-- The Keccak circuit: on the bits of a message of at most 1080 bits the outputs are determined, and
are the first bits of the sponge; every such assignment extends to a witness. -/
theorem keccak_circuit_iff {F : Type} [Field F] {m : List Bool} (hm : m.length ≤ 1080) {d : ℕ}
    (hd : d ≤ 1600) {inp out : ℕ → F}
    (hi : ∀ i < m.length, inp i = if m.getD i false then 1 else 0) :
    Keccak m.length d inp out ↔ ∀ i < d, out i = if (keccak d m).getD i false then 1 else 0 :=
  keccak_iff hm hd hi

/-- The permutation circuit computes Keccak-f on the bits of the state. -/
theorem keccakf_circuit_iff {F : Type} [Field F] {inp out : ℕ → F} {A : State}
    (h : ∀ x y : Fin 5, ∀ z : Fin 64, inp (64 * (5 * y + x) + z) = if A x y z then 1 else 0) :
    Keccakf inp out ↔ ∀ x y : Fin 5, ∀ z : Fin 64,
      out (64 * (5 * y + x) + z) = if keccakF A x y z then 1 else 0 := by
  have conv : ∀ (s : ℕ → F) (B : State), SRel s B ↔ ∀ x y : Fin 5, ∀ z : Fin 64,
      s (64 * (5 * y + x) + z) = if B x y z then 1 else 0 := by
    intro s B
    refine forall₂_congr fun x y => ⟨fun h z => ?_, fun h i hi => ?_⟩
    · have := h z z.2
      rwa [lane, Nat.mul_comm] at this
    · have := h ⟨i, hi⟩
      rwa [Nat.mul_comm] at this
  rw [← conv, keccakf_iff ((conv _ _).mpr h)]

/-- C58: from the bits of the coordinates the circuit's only output is the Ethereum address. -/
theorem pubkey_to_address {F : Type} [Field F] (x y : ℕ) {pubkeyBits : ℕ → F} {a : F}
    (hy : AreBits 256 y pubkeyBits) (hx : AreBits 256 x fun i => pubkeyBits (i + 256)) :
    PubkeyToAddress pubkeyBits a ↔ a = ((ethAddress x y : ℕ) : F) :=
  pubkeyToAddress_iff x y hy hx

/-- The address computed from the coordinates: any 256-bit representatives of the coordinates can be
used. -/
theorem coords_to_address_iff {X Y a : Fp} :
    CoordsToAddress X Y a ↔ ∃ x : ℕ, x < 2 ^ 256 ∧ ∃ y : ℕ, y < 2 ^ 256 ∧ (x : Fp) = X ∧ (y : Fp) = Y ∧
      a = ((ethAddress x y : ℕ) : Fp) := by
  constructor
  · rintro ⟨xb, yb, pb, hx, hy, hb, ha⟩
    obtain ⟨x, hx1, hx2, hx3⟩ := num2Bits_iff.mp hx
    obtain ⟨y, hy1, hy2, hy3⟩ := num2Bits_iff.mp hy
    refine ⟨x, hx1, y, hy1, hx3, hy3, (pubkey_to_address x y ?_ ?_).mp ha⟩
    · intro i hi; rw [(hb i hi).1, hy2 i hi]
    · intro i hi; exact (hb i hi).2.trans (hx2 i hi)
  · rintro ⟨x, hx1, y, hy1, hx3, hy3, ha⟩
    refine ⟨fun i => if x.testBit i then 1 else 0, fun i => if y.testBit i then 1 else 0,
      fun i => if i < 256 then (if y.testBit i then 1 else 0) else
        (if x.testBit (i - 256) then 1 else 0),
      num2Bits_iff.mpr ⟨x, hx1, fun _ _ => rfl, hx3⟩, num2Bits_iff.mpr ⟨y, hy1, fun _ _ => rfl, hy3⟩,
      fun i hi => ⟨by simp [hi], by simp⟩, (pubkey_to_address x y ?_ ?_).mpr ha⟩
    · intro i hi; simp [hi]
    · intro i hi; simp

/-- C58: for coordinates that are not among the `2^256 - p` smallest values, the address of the key is
the only output. -/
theorem coords_to_address_partial {X Y a : Fp} (hX : 2 ^ 256 - secpP ≤ X.val)
    (hY : 2 ^ 256 - secpP ≤ Y.val) :
    CoordsToAddress X Y a ↔ a = ((ethAddress X.val Y.val : ℕ) : Fp) := by
  have huniq : ∀ (Z : Fp), 2 ^ 256 - secpP ≤ Z.val → ∀ v : ℕ, v < 2 ^ 256 → (v : Fp) = Z → v = Z.val := by
    intro Z hZ v hv hvZ
    have hp := secpP_big
    have h1 : v % secpP = Z.val := by rw [← hvZ, ZMod.val_natCast]
    have h2 := Nat.mod_add_div v secpP
    have h3 : v / secpP = 0 := by
      by_contra h0
      have : secpP * 1 ≤ secpP * (v / secpP) := Nat.mul_le_mul_left _ (Nat.one_le_iff_ne_zero.mpr h0)
      omega
    rw [h3] at h2; omega
  rw [coords_to_address_iff]
  constructor
  · rintro ⟨x, hx1, y, hy1, hx3, hy3, ha⟩
    rw [huniq X hX x hx1 hx3, huniq Y hY y hy1 hy3] at ha
    exact ha
  · intro ha
    have hp := secpP_big
    have h1 : X.val < secpP := ZMod.val_lt X
    have h2 : Y.val < secpP := ZMod.val_lt Y
    have h3 : secpP < 2 ^ 256 := by decide +kernel
    exact ⟨X.val, h1.trans h3, Y.val, h2.trans h3, ZMod.natCast_zmod_val X, ZMod.natCast_zmod_val Y, ha⟩

/-- For a smaller abscissa the address of a key that does not exist is accepted as well: the
hash is taken of the bytes of `x + p`. -/
theorem coords_to_address_alias {X Y : Fp} (hX : X.val < 2 ^ 256 - secpP) :
    CoordsToAddress X Y ((ethAddress X.val Y.val : ℕ) : Fp) ∧
      CoordsToAddress X Y ((ethAddress (X.val + secpP) Y.val : ℕ) : Fp) := by
  have h2 : Y.val < secpP := ZMod.val_lt Y
  have h1 : X.val < secpP := ZMod.val_lt X
  have h3 : secpP < 2 ^ 256 := by decide +kernel
  constructor
  · exact coords_to_address_iff.mpr
      ⟨X.val, h1.trans h3, Y.val, h2.trans h3, ZMod.natCast_zmod_val X, ZMod.natCast_zmod_val Y, rfl⟩
  · refine coords_to_address_iff.mpr
      ⟨X.val + secpP, Nat.add_lt_of_lt_sub hX, Y.val, h2.trans h3, ?_, ZMod.natCast_zmod_val Y, rfl⟩
    rw [Nat.cast_add, ZMod.natCast_self, add_zero, ZMod.natCast_zmod_val X]

/-- `EfficientECDSAToAddr`: the outputs are the addresses of the outputs of `EfficientECDSA`. -/
theorem eff_ecdsa_to_addr_iff {s Tx Ty Ux Uy addr : Fp} :
    EfficientECDSAToAddr s Tx Ty Ux Uy addr ↔ ∃ (kBits : ℕ → Fp) (x y : ℕ), x < 2 ^ 256 ∧ y < 2 ^ 256 ∧
      EfficientECDSA s Tx Ty Ux Uy kBits x y ∧ addr = ((ethAddress x y : ℕ) : Fp) := by
  constructor
  · rintro ⟨kBits, X, Y, he, hc⟩
    obtain ⟨x, hx, y, hy, rfl, rfl, ha⟩ := coords_to_address_iff.mp hc
    exact ⟨kBits, x, y, hx, hy, he, ha⟩
  · rintro ⟨kBits, x, y, hx, hy, he, ha⟩
    exact ⟨kBits, x, y, he, coords_to_address_iff.mpr ⟨x, hx, y, hy, rfl, rfl, ha⟩⟩

/-- `AddrMembership`: a witness exists exactly when the address of an output of `EfficientECDSA` is the
leaf of a path to the root. -/
theorem addr_membership_iff {n : ℕ} {s root Tx Ty Ux Uy : Fp} {idx sib : ℕ → Fp} :
    AddrMembership n s root Tx Ty Ux Uy idx sib ↔
      ∃ (kBits : ℕ → Fp) (x y : ℕ), x < 2 ^ 256 ∧ y < 2 ^ 256 ∧
        EfficientECDSA s Tx Ty Ux Uy kBits x y ∧ ∃ right : ℕ → Bool,
          (∀ i < n, idx i = if right i then 1 else 0) ∧
          root = pathNode H ((ethAddress x y : ℕ) : Fp) right sib n := by
  simp only [AddrMembership, AddrMembershipWith, merkle_circuit_iff]
  constructor
  · rintro ⟨kBits, X, Y, addr, he, hc, mr, ⟨right, h1, h2⟩, h3⟩
    obtain ⟨x, hx, y, hy, rfl, rfl, ha⟩ := coords_to_address_iff.mp hc
    rw [ha] at h2
    exact ⟨kBits, x, y, hx, hy, he, right, h1, h3.trans h2⟩
  · rintro ⟨kBits, x, y, hx, hy, he, right, h1, h2⟩
    exact ⟨kBits, x, y, _, he, coords_to_address_iff.mpr ⟨x, hx, y, hy, rfl, rfl, rfl⟩, root,
      ⟨right, h1, h2⟩, rfl⟩

/-- Soundness for addresses: outside the exceptional cases the leaf is the address of the point
`(2^256 + k) T + U` for the `k` carried by the witness. -/
theorem addr_membership_sound_partial {n : ℕ} {s root : Fp} {T U : Secp} (hT : T ≠ 0)
    {idx sib kBits : ℕ → Fp} {X Y addr : Fp}
    (h : AddrMembershipWith n s root (xy T).1 (xy T).2 (xy U).1 (xy U).2 idx sib kBits X Y addr) :
    ∃ k < 2 ^ 256, AreBits 256 k kBits ∧
      (Regular T k → k + 2 ≠ tQ → ¬ FalseZero ((2 ^ 256 + k) • T) U →
        ((2 ^ 256 + k) • T = U → U = 0) →
        (X, Y) = xy ((2 ^ 256 + k) • T + U) ∧
        (2 ^ 256 - secpP ≤ X.val → 2 ^ 256 - secpP ≤ Y.val →
          ∃ right : ℕ → Bool, (∀ i < n, idx i = if right i then 1 else 0) ∧
            root = pathNode H ((ethAddress (xy ((2 ^ 256 + k) • T + U)).1.val
              (xy ((2 ^ 256 + k) • T + U)).2.val : ℕ) : Fp) right sib n)) := by
  obtain ⟨he, hc, mr, hmk, hr⟩ := h
  obtain ⟨mX, mY, hm, -⟩ := id he
  obtain ⟨k, hk, hb⟩ := mul_bits hm
  refine ⟨k, hk, hb, fun h1 h2 h3 h4 => ?_⟩
  have hxy := (eff_ecdsa_circuit_partial T U hT s kBits k hk hb h1 h2 h3 h4 (X, Y)).mp he
  refine ⟨hxy, fun hX hY => ?_⟩
  obtain ⟨right, hi, hp⟩ := merkle_circuit_iff.mp hmk
  refine ⟨right, hi, ?_⟩
  rw [← hxy, hr, hp, (coords_to_address_partial hX hY).mp hc]

/-- Completeness for addresses: the honest signer whose address is in the tree has a witness, outside
the exceptional cases of the signature circuit. -/
theorem addr_membership_honest_partial {n : ℕ} (T U : Secp) (hT : T ≠ 0) (s : Fp)
    (hs : ¬ (2 ^ 128 ≤ s.val + tQlo ∧ s.val < 2 ^ 128))
    (hz : ¬ FalseZero (s.val • T) U) (hd : s.val • T = U → U = 0) :
    ∃ k < 2 ^ 256, (∀ kBits, KHonest s kBits ↔ AreBits 256 k kBits) ∧ (Regular T k →
      ∀ (right : ℕ → Bool) (sib : ℕ → Fp),
        AddrMembership n s
          (pathNode H ((ethAddress (xy (s.val • T + U)).1.val (xy (s.val • T + U)).2.val : ℕ) : Fp)
            right sib n)
          (xy T).1 (xy T).2 (xy U).1 (xy U).2 (fun i => if right i then 1 else 0) sib) := by
  obtain ⟨k, hk, hh, hm⟩ := eff_ecdsa_honest_partial T U hT s hs hz hd
  refine ⟨k, hk, hh, fun hr right sib => ?_⟩
  obtain ⟨⟨kBits, -, he⟩, -⟩ := hm hr
  have h3 : secpP < 2 ^ 256 := by decide +kernel
  refine addr_membership_iff.mpr ⟨kBits, _, _, (ZMod.val_lt _).trans h3, (ZMod.val_lt _).trans h3, ?_,
    right, fun _ _ => rfl, rfl⟩
  rw [ZMod.natCast_zmod_val, ZMod.natCast_zmod_val]
  exact he

end Spartan.Circuit
