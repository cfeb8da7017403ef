import Verif.Lemmas.Address
import Mathlib.Data.Nat.Bitwise

/-!
Evaluation of the Keccak specification on concrete messages: lanes as numbers, one round at a time.
Used for known-answer tests of the specification and for concrete witnesses.
-/

namespace Spartan.Spec.Keccak

def ofLanes (L : List ℕ) : State := fun x y z => (L.getD (5 * (y : ℕ) + (x : ℕ)) 0).testBit z

def rotl (w k : ℕ) : ℕ :=
  ((w % 2 ^ 64) <<< (k % 64) ||| (w % 2 ^ 64) >>> (64 - k % 64)) % 2 ^ 64

theorem rotl_testBit (w k : ℕ) (z : Fin 64) :
    (rotl w k).testBit z = w.testBit ((z - Fin.ofNat 64 k : Fin 64) : ℕ) := by
  have hz := z.2
  have hk : k % 64 < 64 := Nat.mod_lt _ (by norm_num)
  have hs : ((z - Fin.ofNat 64 k : Fin 64) : ℕ) = (64 - k % 64 + z) % 64 := by
    rw [Fin.sub_def]; rfl
  rw [hs, rotl, Nat.testBit_mod_two_pow, Nat.testBit_or, Nat.testBit_shiftLeft, Nat.testBit_shiftRight,
    Nat.testBit_mod_two_pow, Nat.testBit_mod_two_pow]
  by_cases h : k % 64 ≤ z
  · have h1 : (64 - k % 64 + z : ℕ) % 64 = z - k % 64 := by omega
    have h2 : ¬ (64 - k % 64 + z : ℕ) < 64 := by omega
    have h3 : (z - k % 64 : ℕ) < 64 := by omega
    rw [h1]; simp [hz, h, h2, h3]
  · have h1 : (64 - k % 64 + z : ℕ) % 64 = 64 - k % 64 + z := by omega
    have h2 : (64 - k % 64 + z : ℕ) < 64 := by omega
    rw [h1]; simp [hz, h, h2]

section
variable (L : List ℕ)

def par (x : Fin 5) : ℕ :=
  L.getD (5 * 0 + (x : ℕ)) 0 ^^^ L.getD (5 * 1 + (x : ℕ)) 0 ^^^ L.getD (5 * 2 + (x : ℕ)) 0 ^^^
    L.getD (5 * 3 + (x : ℕ)) 0 ^^^ L.getD (5 * 4 + (x : ℕ)) 0

def thetaLane (x y : Fin 5) : ℕ :=
  L.getD (5 * (y : ℕ) + (x : ℕ)) 0 ^^^ (par L (x - 1) ^^^ rotl (par L (x + 1)) 1)

/-- The offsets, evaluated. -/
def offsets : List ℕ :=
  [0, 1, 190, 28, 91, 36, 300, 6, 55, 276, 3, 10, 171, 153, 231, 105, 45, 15, 21, 136, 210, 66, 253,
    120, 78]

theorem offsets_eq : ∀ x y : Fin 5, offsets.getD (5 * (y : ℕ) + (x : ℕ)) 0 = offset x y := by
  decide +kernel

def rhoPiLane (x y : Fin 5) : ℕ :=
  rotl (thetaLane L (x + 3 * y) x) (offsets.getD (5 * (x : ℕ) + ((x + 3 * y : Fin 5) : ℕ)) 0)

def chiLane (x y : Fin 5) : ℕ :=
  rhoPiLane L x y ^^^ ((rhoPiLane L (x + 1) y ^^^ (2 ^ 64 - 1)) &&& rhoPiLane L (x + 2) y)

def lanesRound (rc : ℕ) : List ℕ :=
  (List.range 25).map fun l =>
    if l = 0 then chiLane L 0 0 ^^^ rc else chiLane L (Fin.ofNat 5 l) (Fin.ofNat 5 (l / 5))

theorem theta_ofLanes (x y : Fin 5) (z : Fin 64) :
    theta (ofLanes L) x y z = (thetaLane L x y).testBit z := by
  have hpar : ∀ (x : Fin 5) (z : Fin 64), parity (ofLanes L) x z = (par L x).testBit z := by
    intro x z
    simp only [parity, ofLanes, par, Nat.testBit_xor]
    rfl
  rw [theta, hpar, hpar, thetaLane, Nat.testBit_xor, Nat.testBit_xor, rotl_testBit]
  rfl

theorem rhoPi_ofLanes (x y : Fin 5) (z : Fin 64) :
    pi (rho (theta (ofLanes L))) x y z = (rhoPiLane L x y).testBit z := by
  rw [pi, rho, theta_ofLanes, rhoPiLane, rotl_testBit, offsets_eq]

theorem chi_ofLanes (x y : Fin 5) (z : Fin 64) :
    chi (pi (rho (theta (ofLanes L)))) x y z = (chiLane L x y).testBit z := by
  have h : (2 ^ 64 - 1).testBit z = true := by rw [Nat.testBit_two_pow_sub_one]; simp
  rw [chi, rhoPi_ofLanes, rhoPi_ofLanes, rhoPi_ofLanes, chiLane, Nat.testBit_xor, Nat.testBit_and,
    Nat.testBit_xor, h, Bool.xor_true]

end

theorem round_ofLanes {r rc : ℕ} (hrc : ∀ z : Fin 64, rc.testBit z = roundConstant r z) (L : List ℕ) :
    round r (ofLanes L) = ofLanes (lanesRound L rc) := by
  funext x y z
  have hx := x.2
  have hy := y.2
  rw [round, iota, chi_ofLanes]
  have hg : (lanesRound L rc).getD (5 * (y : ℕ) + (x : ℕ)) 0 =
      if (5 * (y : ℕ) + (x : ℕ)) = 0 then chiLane L 0 0 ^^^ rc else chiLane L x y := by
    rw [lanesRound, List.getD_eq_getElem?_getD, List.getElem?_map, List.getElem?_range (by omega)]
    simp only [Option.map_some, Option.getD_some]
    have h1 : Fin.ofNat 5 (5 * (y : ℕ) + x) = x := Fin.ext (show (5 * (y : ℕ) + x) % 5 = x by omega)
    have h2 : Fin.ofNat 5 ((5 * (y : ℕ) + x) / 5) = y := Fin.ext (show (5 * (y : ℕ) + x) / 5 % 5 = y by omega)
    rw [h1, h2]
  rw [ofLanes, hg]
  by_cases h : x = 0 ∧ y = 0
  · obtain ⟨rfl, rfl⟩ := h
    rw [if_pos ⟨rfl, rfl⟩, if_pos (by decide), Nat.testBit_xor, hrc]
  · have : ¬ (5 * (y : ℕ) + (x : ℕ) = 0) := fun h0 =>
      h ⟨Fin.ext (by simp only [Fin.val_zero]; omega), Fin.ext (by simp only [Fin.val_zero]; omega)⟩
    rw [if_neg h, if_neg this]

/-- The states of the 24 rounds are the entries of the table. -/
def IsTrace (tr : List (List ℕ)) : Prop :=
  ∀ i < 24, lanesRound (tr.getD i []) (Circuit.rcTable.getD i 0) = tr.getD (i + 1) []

instance (tr : List (List ℕ)) : Decidable (IsTrace tr) := inferInstanceAs (Decidable (∀ i < 24, _))

theorem keccakF_trace {tr : List (List ℕ)} (h : IsTrace tr) :
    keccakF (ofLanes (tr.getD 0 [])) = ofLanes (tr.getD 24 []) := by
  have : ∀ i ≤ 24, rounds i (ofLanes (tr.getD 0 [])) = ofLanes (tr.getD i []) := by
    intro i
    induction i with
    | zero => intro _; rfl
    | succ i ih =>
      intro hi
      rw [rounds, ih (by omega), round_ofLanes (Circuit.rc_table i (by omega)), h i (by omega)]
  exact this 24 le_rfl

/-- Bit `i` of the padded coordinates. -/
def keyBit (x y i : ℕ) : Bool :=
  if i < 256 then x.testBit (8 * (31 - i / 8) + i % 8)
  else if i < 512 then y.testBit (8 * (31 - (i - 256) / 8) + i % 8)
  else i = 512 ∨ i = 1087

theorem keyBit_eq (x y i : ℕ) :
    (pad (bytesToBits (beBytes 32 x ++ beBytes 32 y))).getD i false = keyBit x y i := by
  have hlen : (bytesToBits (beBytes 32 x ++ beBytes 32 y)).length = 512 := by
    rw [Circuit.bytesToBits_length, List.length_append, Circuit.beBytes_length, Circuit.beBytes_length]
  rw [Circuit.pad_getD (by omega), hlen, keyBit]
  by_cases h : i < 512
  · rw [if_pos h]
    have := Circuit.bytesToBits_getD (beBytes 32 x ++ beBytes 32 y) (i / 8) (Nat.mod_lt i (by norm_num : 8 > 0))
    rw [show 8 * (i / 8) + i % 8 = i by omega] at this
    rw [this]
    by_cases c : i < 256
    · rw [if_pos c, List.getD_append _ _ _ _ (by rw [Circuit.beBytes_length]; omega),
        Circuit.beBytes_testBit (by omega) (Nat.mod_lt _ (by norm_num))]
    · rw [if_neg c, if_pos h, List.getD_append_right _ _ _ _ (by rw [Circuit.beBytes_length]; omega),
        Circuit.beBytes_length, Circuit.beBytes_testBit (by omega) (Nat.mod_lt _ (by norm_num)),
        show 32 - 1 - (i / 8 - 32) = 31 - (i - 256) / 8 by omega]
  · rw [if_neg h, if_neg (by omega), if_neg h]

/-- The address from a table of states. -/
theorem ethAddress_trace {tr : List (List ℕ)} {x y : ℕ} (h : IsTrace tr)
    (h0 : ∀ (a b : Fin 5) (z : Fin 64), keyBit x y (64 * (5 * b + a) + z) = ofLanes (tr.getD 0 []) a b z) :
    ethAddress x y = beNat ((List.range 20).map fun i =>
      byteAt ((toBits (ofLanes (tr.getD 24 []))).take 256) (12 + i)) := by
  have hlen : (bytesToBits (beBytes 32 x ++ beBytes 32 y)).length = 512 := by
    rw [Circuit.bytesToBits_length, List.length_append, Circuit.beBytes_length, Circuit.beBytes_length]
  have hk : keccak 256 (bytesToBits (beBytes 32 x ++ beBytes 32 y)) =
      (toBits (ofLanes (tr.getD 24 []))).take 256 := by
    rw [keccak, Circuit.blocks_one (Circuit.pad_length (by omega)), List.foldl_cons, List.foldl_nil,
      absorb, ← keccakF_trace h]
    congr 3
    funext a b z
    rw [Bool.false_xor, ofBits, keyBit_eq, h0]
  rw [ethAddress, keccak256, hk, ← List.map_drop, Circuit.drop_range, List.map_map]
  rfl

end Spartan.Spec.Keccak
