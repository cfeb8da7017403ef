import Verif.Lemmas.Keccak
import Mathlib.Algebra.BigOperators.Intervals
import Mathlib.Data.List.GetD

/-! Bytes and bits around the Keccak circuit. -/

namespace Spartan.Circuit
open Spartan.Spec.Keccak

variable {F : Type} [Field F]

theorem bytesToBits_getD (l : List ℕ) (i : ℕ) {j : ℕ} (hj : j < 8) :
    (bytesToBits l).getD (8 * i + j) false = (l.getD i 0).testBit j := by
  induction l generalizing i with
  | nil => simp [bytesToBits]
  | cons b l ih =>
    have hl : ((List.range 8).map fun j => b.testBit j).length = 8 := by simp
    simp only [bytesToBits, List.flatMap_cons] at ih ⊢
    cases i with
    | zero =>
      rw [List.getD_append _ _ _ _ (by rw [hl]; omega)]
      simp [List.getD_eq_getElem?_getD, List.getElem?_map, List.getElem?_range hj]
    | succ i =>
      rw [List.getD_append_right _ _ _ _ (by rw [hl]; omega), hl,
        show 8 * (i + 1) + j - 8 = 8 * i + j by omega, ih, List.getD_cons_succ]

theorem bytesToBits_length (l : List ℕ) : (bytesToBits l).length = 8 * l.length := by
  induction l with
  | nil => rfl
  | cons b l ih =>
    simp only [bytesToBits, List.flatMap_cons, List.length_append, List.length_map,
      List.length_range, List.length_cons] at ih ⊢
    omega

theorem beBytes_length (n v : ℕ) : (beBytes n v).length = n := by simp [beBytes]

theorem beBytes_testBit {n v i j : ℕ} (hi : i < n) (hj : j < 8) :
    ((beBytes n v).getD i 0).testBit j = v.testBit (8 * (n - 1 - i) + j) := by
  have : (beBytes n v).getD i 0 = v / 256 ^ (n - 1 - i) % 256 := by
    simp [beBytes, List.getD_eq_getElem?_getD, List.getElem?_map, List.getElem?_range hi]
  rw [this, show 256 ^ (n - 1 - i) = 2 ^ (8 * (n - 1 - i)) by rw [pow_mul]; norm_num,
    show (256 : ℕ) = 2 ^ 8 by norm_num, Nat.testBit_mod_two_pow, Nat.testBit_div_two_pow]
  simp [hj, Nat.add_comm]

theorem sum_bytes {M : Type} [AddCommMonoid M] (f : ℕ → M) (n : ℕ) :
    ∑ k ∈ Finset.range (8 * n), f k = ∑ i ∈ Finset.range n, ∑ j ∈ Finset.range 8, f (8 * i + j) := by
  induction n with
  | zero => simp
  | succ n ih => rw [Nat.mul_succ, Finset.sum_range_add, ih, Finset.sum_range_succ (n := n)]

theorem beNat_range (f : ℕ → ℕ) (n : ℕ) :
    beNat ((List.range n).map f) = ∑ i ∈ Finset.range n, 256 ^ i * f (n - 1 - i) := by
  induction n with
  | zero => rfl
  | succ n ih =>
    rw [List.range_succ, List.map_append, beNat, List.foldl_append]
    rw [beNat] at ih
    rw [ih, Finset.sum_range_succ']
    simp only [List.map_cons, List.map_nil, List.foldl_cons, List.foldl_nil, Nat.add_sub_cancel,
      Nat.sub_zero, pow_zero, one_mul, Finset.mul_sum]
    congr 1
    refine Finset.sum_congr rfl fun i _ => ?_
    rw [pow_succ, show n - 1 - i = n - (i + 1) by omega]; ring

theorem byteAt_cast (K : List Bool) (i : ℕ) :
    ((byteAt K i : ℕ) : F) = ∑ j ∈ Finset.range 8, bit (K.getD (8 * i + j) false) * 2 ^ j := by
  have : byteAt K i = ∑ j ∈ Finset.range 8, if K.getD (8 * i + j) false then 2 ^ j else 0 := by
    simp [byteAt, List.range_succ, Finset.sum_range_succ, add_assoc]
  rw [this, Nat.cast_sum]
  refine Finset.sum_congr rfl fun j _ => ?_
  cases K.getD (8 * i + j) false <;> simp [bit]

theorem drop_range : (List.range 32).drop 12 = (List.range 20).map (12 + ·) := by decide

theorem ethAddress_cast (x y : ℕ) : ((ethAddress x y : ℕ) : F) =
    ∑ k ∈ Finset.range 160,
      bit ((keccak 256 (bytesToBits (beBytes 32 x ++ beBytes 32 y))).getD
        (8 * (31 - k / 8) + k % 8) false) * 2 ^ k := by
  generalize hK : keccak 256 (bytesToBits (beBytes 32 x ++ beBytes 32 y)) = K
  rw [ethAddress, keccak256, hK, ← List.map_drop, drop_range, List.map_map, beNat_range,
    Nat.cast_sum, show 160 = 8 * 20 from rfl, sum_bytes]
  refine Finset.sum_congr rfl fun i hi => ?_
  rw [Finset.mem_range] at hi
  simp only [Function.comp]
  rw [Nat.cast_mul, byteAt_cast, Finset.mul_sum, show 12 + (20 - 1 - i) = 31 - i by omega]
  refine Finset.sum_congr rfl fun j hj => ?_
  rw [Finset.mem_range] at hj
  rw [show (8 * i + j) / 8 = i by omega, show (8 * i + j) % 8 = j by omega, pow_add, pow_mul]
  push_cast
  norm_num
  ring

theorem pubkeyToAddress_iff (x y : ℕ) {pubkeyBits : ℕ → F} {a : F}
    (hy : ∀ i < 256, pubkeyBits i = bit (y.testBit i))
    (hx : ∀ i < 256, pubkeyBits (i + 256) = bit (x.testBit i)) :
    PubkeyToAddress pubkeyBits a ↔ a = ((ethAddress x y : ℕ) : F) := by
  set m := bytesToBits (beBytes 32 x ++ beBytes 32 y) with hm
  have hlen : m.length = 512 := by
    rw [hm, bytesToBits_length, List.length_append, beBytes_length, beBytes_length]
  have hbit : ∀ i < 64, ∀ j < 8, pubkeyBits (511 - (8 * i + (7 - j))) = bit (m.getD (8 * i + j) false) := by
    intro i hi j hj
    rw [hm, bytesToBits_getD _ _ hj]
    by_cases c : i < 32
    · rw [List.getD_append _ _ _ _ (by rw [beBytes_length]; exact c), beBytes_testBit c hj,
        show 511 - (8 * i + (7 - j)) = 8 * (32 - 1 - i) + j + 256 by omega, hx _ (by omega)]
    · rw [List.getD_append_right _ _ _ _ (by rw [beBytes_length]; omega), beBytes_length,
        beBytes_testBit (by omega) hj,
        show 511 - (8 * i + (7 - j)) = 8 * (32 - 1 - (i - 32)) + j by omega, hy _ (by omega)]
  have hin : ∀ inp : ℕ → F, (∀ i < 64, ∀ j < 8, inp (8 * i + j) = bit (m.getD (8 * i + j) false)) →
      ∀ i < m.length, inp i = bit (m.getD i false) := by
    intro inp h i hi
    have := h (i / 8) (by omega) (i % 8) (by omega)
    rwa [show 8 * (i / 8) + i % 8 = i by omega] at this
  have hk := @keccak_iff F _ m (by omega) 256 (by norm_num)
  rw [ethAddress_cast, ← hm]
  constructor
  · rintro ⟨rev, kin, kout, b, h1, h2, h3, h4, h5⟩
    have hkin := hin kin fun i hi j hj => by
      rw [h2 i (by omega) j hj, h1 _ (by omega), hbit i hi j hj]
    rw [← hlen, hk hkin] at h3
    rw [h5]
    refine Finset.sum_congr rfl fun k hk => ?_
    rw [Finset.mem_range] at hk
    have := h4 (k / 8) (by omega) (k % 8) (by omega)
    rw [show 8 * (k / 8) + k % 8 = k by omega, h3 _ (by omega),
      show 256 - 8 * (k / 8 + 1) + k % 8 = 8 * (31 - k / 8) + k % 8 by omega] at this
    rw [this]
  · intro h
    refine ⟨fun i => pubkeyBits (511 - i), fun k => bit (m.getD k false),
      fun k => bit ((keccak 256 m).getD k false),
      fun k => bit ((keccak 256 m).getD (8 * (31 - k / 8) + k % 8) false),
      fun _ _ => rfl, fun i hi j hj => (hbit i (by omega) j hj).symm, ?_, ?_, h⟩
    · rw [← hlen, hk fun _ _ => rfl]
      intro i _; rfl
    · intro i hi j hj
      beta_reduce
      rw [show 8 * (31 - (8 * i + j) / 8) + (8 * i + j) % 8 = 256 - 8 * (i + 1) + j by omega]

end Spartan.Circuit
