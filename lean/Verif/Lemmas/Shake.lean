import Verif.Model.Shake
import Verif.Lemmas.KeccakF
import Verif.Lemmas.Address

/-! The sha3 crate computes SHAKE256. -/

namespace Spartan.Shake
open Spec.Keccak (bytesToBits ofLanes)

attribute [local irreducible] absorbBlock KeccakF.f1600

/-! ### Absorbing, byte by byte -/

/-- The full blocks of some data. -/
def chunks (data : List UInt8) : List (List UInt8) :=
  (List.range (data.length / 136)).map fun i => (data.drop (136 * i)).take 136

theorem chunks_append {d e : List UInt8} (h : d.length % 136 + e.length < 136) : chunks (d ++ e) = chunks d := by
  unfold chunks
  have hl : (d ++ e).length / 136 = d.length / 136 := by rw [List.length_append]; omega
  rw [hl]
  refine List.map_congr_left fun i hi => ?_
  have hi := List.mem_range.mp hi
  rw [List.drop_append_of_le_length (by omega), List.take_append_of_le_length (by rw [List.length_drop]; omega)]

theorem chunks_full {d e : List UInt8} (h : d.length % 136 + e.length = 136) :
    chunks (d ++ e) = chunks d ++ [d.drop (136 * (d.length / 136)) ++ e] := by
  unfold chunks
  have hl : (d ++ e).length / 136 = d.length / 136 + 1 := by rw [List.length_append]; omega
  rw [hl, List.range_succ, List.map_append]
  congr 1
  · refine List.map_congr_left fun i hi => ?_
    have hi := List.mem_range.mp hi
    rw [List.drop_append_of_le_length (by omega), List.take_append_of_le_length (by rw [List.length_drop]; omega)]
  · rw [List.map_singleton, List.drop_append_of_le_length (by omega), List.take_of_length_le]
    rw [List.length_append, List.length_drop]
    omega

/-- What the hasher has seen. -/
structure Seen (s : Shake) (data : List UInt8) : Prop where
  buffer : s.buffer = data.drop (136 * (data.length / 136))
  state : s.state = (chunks data).foldl absorbBlock (List.replicate 25 0)

theorem seen_new : Seen new [] := ⟨rfl, rfl⟩

theorem Seen.byte {s : Shake} {data : List UInt8} (h : Seen s data) (b : UInt8) : Seen (inputByte s b) (data ++ [b]) := by
  have hb : s.buffer.length = data.length % 136 := by
    rw [h.buffer, List.length_drop]; omega
  unfold inputByte
  simp only
  split_ifs with hf
  · rw [List.length_append, List.length_singleton] at hf
    have hm : data.length % 136 + [b].length = 136 := by rw [List.length_singleton]; omega
    constructor
    · symm
      simp only
      apply List.drop_of_length_le
      rw [List.length_append, List.length_singleton]
      omega
    · simp only
      rw [chunks_full hm, List.foldl_append, ← h.state, ← h.buffer, List.foldl_cons, List.foldl_nil]
  · rw [List.length_append, List.length_singleton] at hf
    have hm : data.length % 136 + [b].length < 136 := by rw [List.length_singleton]; omega
    constructor
    · simp only
      have hl : (data ++ [b]).length / 136 = data.length / 136 := by
        rw [List.length_append]; rw [List.length_singleton] at hm ⊢; omega
      rw [hl, List.drop_append_of_le_length (by omega), h.buffer]
    · simp only
      rw [chunks_append hm, h.state]

theorem Seen.input {s : Shake} {data : List UInt8} (h : Seen s data) (e : List UInt8) : Seen (input s e) (data ++ e) := by
  induction e generalizing s data with
  | nil => rw [List.append_nil]; exact h
  | cons b e ih =>
    have := ih (h.byte b)
    rw [List.append_assoc] at this
    exact this

/-- The bytes that padding adds to data of length `n`. -/
def tail (n : ℕ) : List UInt8 :=
  if n % 136 = 135 then [0x9f] else 0x1f :: (List.replicate (134 - n % 136) 0 ++ [0x80])

theorem tail_length (n : ℕ) : n % 136 + (tail n).length = 136 := by
  unfold tail
  have := Nat.mod_lt n (show 136 > 0 by norm_num)
  split_ifs with h
  · rw [h]; rfl
  · simp only [List.length_cons, List.length_append, List.length_replicate, List.length_nil]
    omega

theorem padBlock_eq {buffer : List UInt8} {n : ℕ} (h : buffer.length = n % 136) :
    padBlock buffer = buffer ++ tail n := by
  have hn := Nat.mod_lt n (show 136 > 0 by norm_num)
  unfold padBlock tail
  simp only
  split_ifs with h1
  · rw [h, h1, Nat.sub_self, List.replicate_zero]
    rw [List.set_append_right _ _ (by omega), List.getD_append_right _ _ _ _ (by omega), h, h1]
    rfl
  · obtain ⟨k, hk⟩ : ∃ k, 134 - n % 136 = k := ⟨_, rfl⟩
    rw [show 135 - buffer.length = k + 1 by omega, hk, List.replicate_succ',
      List.set_append_right _ _ (by omega), List.getD_append_right _ _ _ _ (by omega),
      show 135 - buffer.length = k + 1 by omega, List.set_cons_succ, List.getD_cons_succ,
      List.set_append_right _ _ (by simp), List.getD_append_right _ _ _ _ (by simp)]
    simp

/-- The state of the reader: all blocks of the padded data. -/
theorem xofResult_eq {s : Shake} {data : List UInt8} (h : Seen s data) :
    xofResult s = ⟨(chunks (data ++ tail data.length)).foldl absorbBlock (List.replicate 25 0), 0⟩ := by
  have hb : s.buffer.length = data.length % 136 := by
    rw [h.buffer, List.length_drop]; omega
  rw [chunks_full (tail_length _), List.foldl_append, ← h.state, ← h.buffer, ← padBlock_eq hb, List.foldl_cons,
    List.foldl_nil]
  unfold xofResult
  rfl

/-! ### The padded data -/

theorem bits_append (a b : List ℕ) : bytesToBits (a ++ b) = bytesToBits a ++ bytesToBits b := by
  unfold bytesToBits; rw [List.flatMap_append]

theorem bits_cons (a : ℕ) (b : List ℕ) : bytesToBits (a :: b) = bytesToBits [a] ++ bytesToBits b := bits_append [a] b

theorem bits_zero (n : ℕ) : bytesToBits (List.replicate n 0) = List.replicate (8 * n) false := by
  induction n with
  | zero => rfl
  | succ n ih =>
    rw [List.replicate_succ, show 8 * (n + 1) = 8 + 8 * n by ring, List.replicate_add, ← ih]
    simp [bytesToBits, List.range_succ]

theorem bits_pad (m : List ℕ) :
    Spec.Keccak.pad (bytesToBits m ++ [true, true, true, true]) = bytesToBits (m ++ (tail m.length).map UInt8.toNat) := by
  have hn := Nat.mod_lt m.length (show 136 > 0 by norm_num)
  unfold Spec.Keccak.pad
  rw [List.length_append, Circuit.bytesToBits_length, bits_append]
  simp only [List.append_assoc]
  congr 1
  unfold tail Spec.Keccak.rate
  split_ifs with h
  · rw [show (1088 - (8 * m.length + [true, true, true, true].length + 2) % 1088) % 1088 = 2 by
      simp only [List.length_cons, List.length_nil]; omega]
    decide
  · rw [show (1088 - (8 * m.length + [true, true, true, true].length + 2) % 1088) % 1088 =
        3 + 8 * (134 - m.length % 136) + 7 by
      simp only [List.length_cons, List.length_nil]; omega]
    rw [List.map_cons, List.map_append, List.map_replicate, bits_cons, bits_append,
      show (UInt8.toNat 0) = 0 from rfl, bits_zero, List.replicate_add, List.replicate_add]
    simp only [List.append_assoc]
    rw [show bytesToBits [UInt8.toNat 0x1f] = [true, true, true, true] ++ ([true] ++ List.replicate 3 false) by decide,
      show bytesToBits (List.map UInt8.toNat [0x80]) = List.replicate 7 false ++ [true] by decide]
    simp only [List.append_assoc]

theorem bits_drop (l : List ℕ) (k : ℕ) : (bytesToBits l).drop (8 * k) = bytesToBits (l.drop k) := by
  induction k generalizing l with
  | zero => rfl
  | succ k ih =>
    cases l with
    | nil => simp [bytesToBits]
    | cons b l =>
      rw [List.drop_succ_cons, ← ih, show 8 * (k + 1) = 8 + 8 * k by ring, ← List.drop_drop, bits_cons]
      congr 1

theorem bits_take (l : List ℕ) (k : ℕ) : (bytesToBits l).take (8 * k) = bytesToBits (l.take k) := by
  induction k generalizing l with
  | zero => rfl
  | succ k ih =>
    cases l with
    | nil => simp [bytesToBits]
    | cons b l =>
      rw [List.take_succ_cons, bits_cons b (l.take k), ← ih, bits_cons b l,
        List.take_append, Circuit.bytesToBits_length]
      have : (bytesToBits [b]).take (8 * (k + 1)) = bytesToBits [b] :=
        List.take_of_length_le (by rw [Circuit.bytesToBits_length]; simp)
      rw [this, show 8 * (k + 1) - 8 * [b].length = 8 * k by rw [List.length_singleton]; omega]

theorem bits_blocks (data : List UInt8) (h : data.length % 136 = 0) :
    Spec.Keccak.blocks (bytesToBits (data.map UInt8.toNat)) = (chunks data).map fun c => bytesToBits (c.map UInt8.toNat) := by
  unfold Spec.Keccak.blocks chunks Spec.Keccak.rate
  rw [Circuit.bytesToBits_length, List.length_map, List.map_map,
    show 8 * data.length / 1088 = data.length / 136 by omega]
  refine List.map_congr_left fun i _ => ?_
  show _ = bytesToBits (((data.drop (136 * i)).take 136).map UInt8.toNat)
  rw [show 1088 * i = 8 * (136 * i) by ring, bits_drop, show 1088 = 8 * 136 from rfl, bits_take, List.map_take,
    List.map_drop]

/-! ### One block -/

theorem absorbBlock_spec {s : Words} (h : KeccakF.Words s) {block : List UInt8} (hb : block.length = 136) :
    KeccakF.Words (absorbBlock s block) ∧
    ofLanes (absorbBlock s block) = Spec.Keccak.absorb (ofLanes s) (bytesToBits (block.map UInt8.toNat)) := by
  have hw : KeccakF.Words ((List.range 25).map fun i =>
      if i < 17 then s.getD i 0 ^^^ leNat ((block.drop (8 * i)).take 8) else s.getD i 0) := by
    refine KeccakF.words_map fun i _ => ?_
    split_ifs
    · refine Nat.xor_lt_two_pow (h.getD _) ?_
      refine lt_of_lt_of_le (MParams.leNat_lt _) ?_
      rw [show 2 ^ 64 = 256 ^ 8 by norm_num]
      exact Nat.pow_le_pow_right (by norm_num) (by simp)
    · exact h.getD _
  obtain ⟨h1, h2⟩ := KeccakF.f1600_eq hw
  unfold absorbBlock
  refine ⟨h1, ?_⟩
  rw [h2]
  unfold Spec.Keccak.absorb
  congr 1
  funext x y z
  have hx := x.2
  have hy := y.2
  have hz := z.2
  unfold ofLanes Spec.Keccak.ofBits
  rw [KeccakF.getD_map_range (by omega)]
  have e : 64 * (5 * (y : ℕ) + (x : ℕ)) + (z : ℕ) = 8 * (8 * (5 * (y : ℕ) + (x : ℕ)) + (z : ℕ) / 8) + (z : ℕ) % 8 := by omega
  have ez : (z : ℕ) = 8 * ((z : ℕ) / 8) + (z : ℕ) % 8 := by omega
  simp only
  rw [e, Circuit.bytesToBits_getD _ _ (Nat.mod_lt _ (by norm_num))]
  split_ifs with h17
  · rw [Nat.testBit_xor]
    congr 1
    conv_lhs => rw [ez]
    rw [KeccakF.leNat_testBit _ _ (Nat.mod_lt _ (by norm_num))]
    congr 1
    simp only [List.getD_eq_getElem?_getD, List.getElem?_take, List.getElem?_drop, List.getElem?_map]
    rw [if_pos (by omega)]
    cases block[8 * (5 * (y : ℕ) + (x : ℕ)) + (z : ℕ) / 8]? <;> rfl
  · have hn : (block.map UInt8.toNat).getD (8 * (5 * (y : ℕ) + (x : ℕ)) + (z : ℕ) / 8) 0 = 0 := by
      rw [List.getD_eq_getElem?_getD, List.getElem?_eq_none (by rw [List.length_map]; omega)]; rfl
    rw [hn, Nat.zero_testBit, Bool.xor_false]

theorem fold_spec (cs : List (List UInt8)) (hc : ∀ c ∈ cs, c.length = 136) {s : Words} (h : KeccakF.Words s) :
    KeccakF.Words (cs.foldl absorbBlock s) ∧ ofLanes (cs.foldl absorbBlock s) =
      (cs.map fun c => bytesToBits (c.map UInt8.toNat)).foldl Spec.Keccak.absorb (ofLanes s) := by
  induction cs generalizing s with
  | nil => exact ⟨h, rfl⟩
  | cons c cs ih =>
    obtain ⟨h1, h2⟩ := absorbBlock_spec h (hc c List.mem_cons_self)
    have := ih (fun c' hc' => hc c' (List.mem_cons_of_mem _ hc')) h1
    rw [List.foldl_cons, List.map_cons, List.foldl_cons, ← h2]
    exact this

theorem chunks_length {data c : List UInt8} (h : c ∈ chunks data) : c.length = 136 := by
  obtain ⟨i, hi, rfl⟩ := List.mem_map.mp h
  have := List.mem_range.mp hi
  rw [List.length_take, List.length_drop]
  omega

/-- The state of the reader is that of the sponge. -/
theorem xofResult_spec {s : Shake} {data : List UInt8} (h : Seen s data) :
    KeccakF.Words (xofResult s).state ∧ ofLanes (xofResult s).state =
      Spec.Keccak.absorbed (bytesToBits (data.map UInt8.toNat) ++ [true, true, true, true]) ∧ (xofResult s).offset = 0 := by
  rw [xofResult_eq h]
  have hw : KeccakF.Words (List.replicate 25 0) := ⟨by simp, fun w hw => by
    rw [List.eq_of_mem_replicate hw]; norm_num⟩
  obtain ⟨h1, h2⟩ := fold_spec (chunks (data ++ tail data.length)) (fun c hc => chunks_length hc) hw
  refine ⟨h1, ?_, rfl⟩
  simp only
  rw [h2, Spec.Keccak.absorbed, bits_pad, List.length_map, ← List.map_append, bits_blocks _ (by
    rw [List.length_append]; have := tail_length data.length; omega)]
  congr 1
  funext x y z
  unfold ofLanes
  have : (List.replicate 25 0).getD (5 * (y : ℕ) + (x : ℕ)) 0 = 0 := by
    rw [List.getD_eq_getElem?_getD, List.getElem?_replicate]; split_ifs <;> rfl
  rw [this, Nat.zero_testBit]

/-! ### Reading -/

theorem read_succ (n : ℕ) (r : Reader) : read (n + 1) r = ((readByte r).1 :: (read n (readByte r).2).1, (read n (readByte r).2).2) := rfl

/-- The reader after `k` bytes. -/
def after (w : Words) (k : ℕ) : Reader := ⟨KeccakF.f1600^[k / 136] w, k % 136⟩

/-- Byte `k` of the output. -/
def outByte (w : Words) (k : ℕ) : UInt8 := (readByte (after w k)).1

theorem readByte_after (w : Words) (k : ℕ) : (readByte (after w k)).2 = after w (k + 1) := by
  unfold readByte after
  simp only
  split_ifs with h
  · rw [show (k + 1) / 136 = k / 136 + 1 by omega, show (k + 1) % 136 = 0 by omega, Function.iterate_succ_apply']
  · rw [show (k + 1) / 136 = k / 136 by omega, show (k + 1) % 136 = k % 136 + 1 by omega]

theorem read_after (w : Words) (n k : ℕ) :
    read n (after w k) = ((List.range n).map fun j => outByte w (k + j), after w (k + n)) := by
  induction n generalizing k with
  | zero => rfl
  | succ n ih =>
    rw [read_succ, readByte_after, ih]
    simp only [Prod.mk.injEq]
    refine ⟨?_, by rw [show k + 1 + n = k + (n + 1) by ring]⟩
    rw [List.range_succ_eq_map, List.map_cons, List.map_map]
    congr 1
    refine List.map_congr_left fun j _ => ?_
    simp only [Function.comp]
    rw [show k + 1 + j = k + (j + 1) by ring]

theorem iterate_words {w : Words} (h : KeccakF.Words w) (n : ℕ) :
    KeccakF.Words (KeccakF.f1600^[n] w) ∧ ofLanes (KeccakF.f1600^[n] w) = Spec.Keccak.keccakF^[n] (ofLanes w) := by
  induction n with
  | zero => exact ⟨h, rfl⟩
  | succ n ih =>
    obtain ⟨h1, h2⟩ := KeccakF.f1600_eq ih.1
    rw [Function.iterate_succ_apply', Function.iterate_succ_apply', ← ih.2]
    exact ⟨h1, h2⟩

theorem outByte_spec {w : Words} (h : KeccakF.Words w) {m : List Bool} (hm : ofLanes w = Spec.Keccak.absorbed m) (k : ℕ) :
    (outByte w k).toNat =
      ((List.range 8).map fun j => if Spec.Keccak.squeezed m (8 * k + j) then 2 ^ j else 0).sum := by
  have hk := Nat.mod_lt k (show 136 > 0 by norm_num)
  have e : ((List.range 8).map fun j => if Spec.Keccak.squeezed m (8 * k + j) then 2 ^ j else 0).sum =
      ((KeccakF.f1600^[k / 136] w).getD (k % 136 / 8) 0 >>> (8 * (k % 136 % 8))) % 256 := by
    refine KeccakF.sum_bits_eq fun b hb => ?_
    unfold Spec.Keccak.squeezed Spec.Keccak.rate
    rw [show (8 * k + b) / 1088 = k / 136 by omega, ← hm, ← (iterate_words h _).2, KeccakF.toBits_ofLanes _ (by omega),
      Nat.testBit_shiftRight, show (8 * k + b) % 1088 / 64 = k % 136 / 8 by omega,
      show (8 * k + b) % 1088 % 64 = 8 * (k % 136 % 8) + b by omega]
  rw [e]
  unfold outByte readByte after
  simp

/-- The stream of the reader is SHAKE256 of the input. -/
theorem outByte_shake {s : Shake} {data : List UInt8} (h : Seen s data) (k : ℕ) :
    (outByte (xofResult s).state k).toNat = Spec.Keccak.shake256 (data.map UInt8.toNat) k := by
  obtain ⟨h1, h2, -⟩ := xofResult_spec h
  exact outByte_spec h1 h2 k

end Spartan.Shake
