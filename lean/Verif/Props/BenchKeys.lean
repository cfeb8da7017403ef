import Verif.Model.BenchKeys
import Verif.Lemmas.LimbsRep
import Mathlib.Data.List.GetD

/-! C142: the benchmark programs make a valid private key of every name, and different keys of different names. -/

namespace Spartan.Bench

open MParams

/-- The code unit at position `i` of the name repeated without end. -/
def unitAt (member : List UInt16) (i : ℕ) : UInt16 := member.getD (i % member.length) 0

theorem flatten_replicate_getD (l : List UInt16) (hl : l ≠ []) : ∀ (n i : ℕ), i < n * l.length →
    (List.replicate n l).flatten.getD i 0 = unitAt l i
  | 0, i, h => by omega
  | n + 1, i, h => by
    have hp : 0 < l.length := List.length_pos_of_ne_nil hl
    rw [List.replicate_succ, List.flatten_cons]
    by_cases hi : i < l.length
    · rw [List.getD_append _ _ _ _ hi, unitAt, Nat.mod_eq_of_lt hi]
    · rw [List.getD_append_right _ _ _ _ (by omega), flatten_replicate_getD l hl n _ (by rw [Nat.succ_mul] at h; omega), unitAt,
        unitAt, Nat.mod_eq_sub_mod (a := i) (by omega)]

theorem pad_eq {member : List UInt16} (h : member ≠ []) :
    padStart [] 16 member = (List.range 16).map (unitAt member) := by
  have hp : 0 < member.length := List.length_pos_of_ne_nil h
  have hlen : (List.replicate 16 member).flatten.length = 16 * member.length := by simp; omega
  rw [padStart, if_neg (by simp [h]), List.append_nil, List.length_nil, Nat.sub_zero]
  apply List.ext_getElem
  · rw [List.length_take, hlen, List.length_map, List.length_range]; omega
  · intro i h1 h2
    rw [List.length_map, List.length_range] at h2
    have hi : i < 16 * member.length := by nlinarith
    rw [List.getElem_take, List.getElem_map, List.getElem_range, ← flatten_replicate_getD member h 16 i hi,
      List.getD_eq_getElem _ _ (by rw [hlen]; exact hi)]

theorem utf16le_length (s : List UInt16) : (utf16le s).length = 2 * s.length := by
  rw [utf16le, List.length_flatMap]
  simp
  omega

theorem utf16le_cons (u : UInt16) (s : List UInt16) :
    utf16le (u :: s) = [UInt8.ofNat (u.toNat % 256), UInt8.ofNat (u.toNat / 256)] ++ utf16le s := by
  rw [utf16le, List.flatMap_cons, utf16le]

theorem utf16le_inj : ∀ {s t : List UInt16}, utf16le s = utf16le t → s = t
  | [], [], _ => rfl
  | [], b :: t, h => by simp [utf16le] at h
  | a :: s, [], h => by simp [utf16le] at h
  | a :: s, b :: t, h => by
    rw [utf16le, utf16le, List.flatMap_cons, List.flatMap_cons] at h
    obtain ⟨h1, h⟩ := List.cons.inj h
    obtain ⟨h2, h⟩ := List.cons.inj h
    have ha := a.toNat_lt
    have hb := b.toNat_lt
    have e1 := congrArg UInt8.toNat h1
    have e2 := congrArg UInt8.toNat h2
    rw [UInt8.toNat_ofNat', UInt8.toNat_ofNat'] at e1 e2
    rw [utf16le_inj h, UInt16.toNat_inj.1 (show a.toNat = b.toNat by omega)]

/-- C142.  Two names give the same key exactly when they agree, repeated, in the first 16 code units. -/
theorem benchmark_keys_differ {a b : List UInt16} (ha : a ≠ []) (hb : b ≠ []) :
    privateKey a = privateKey b ↔ ∀ i < 16, unitAt a i = unitAt b i := by
  rw [privateKey, privateKey, pad_eq ha, pad_eq hb]
  constructor
  · intro h i hi
    exact List.map_inj_left.1 (utf16le_inj h) i (List.mem_range.2 hi)
  · intro h
    rw [List.map_congr_left fun i hi => h i (List.mem_range.1 hi)]

theorem utf16le_get : ∀ (s : List UInt16) (i : ℕ),
    (utf16le s)[2 * i]? = s[i]?.map (fun u : UInt16 => UInt8.ofNat (u.toNat % 256)) ∧
    (utf16le s)[2 * i + 1]? = s[i]?.map (fun u : UInt16 => UInt8.ofNat (u.toNat / 256))
  | [], i => by simp [utf16le]
  | u :: s, 0 => by simp [utf16le_cons]
  | u :: s, i + 1 => by
    have := utf16le_get s i
    rw [utf16le_cons, show 2 * (i + 1) = 2 * i + 1 + 1 by ring, show 2 * i + 1 + 1 + 1 = (2 * i + 1) + 1 + 1 by ring]
    simpa using this

/-- C142.  The bytes of the key: the code units of the repeated name, each with its low byte first. -/
theorem benchmark_key_bytes {member : List UInt16} (h : member ≠ []) {i : ℕ} (hi : i < 16) :
    (privateKey member)[2 * i]? = some (UInt8.ofNat ((unitAt member i).toNat % 256)) ∧
    (privateKey member)[2 * i + 1]? = some (UInt8.ofNat ((unitAt member i).toNat / 256)) := by
  rw [privateKey, pad_eq h, (utf16le_get _ i).1, (utf16le_get _ i).2, List.getElem?_map, List.getElem?_range hi]
  exact ⟨rfl, rfl⟩

theorem leNat_pos : ∀ {l : List UInt8} {b : UInt8}, b ∈ l → b ≠ 0 → 0 < leNat l
  | c :: l, b, h, hb => by
    rw [leNat]
    rcases List.mem_cons.1 h with rfl | h
    · have : b.toNat ≠ 0 := fun e => hb (UInt8.toNat_inj.1 e)
      omega
    · have := leNat_pos h hb
      omega

/-- C142.  Every name that does not begin with the code unit `0xffff` and has one other than 0 among its first 16 gives a
private key of 32 bytes that, as a big-endian integer, is at least 1 and below the order of the curve; the empty name gives no
key. -/
theorem benchmark_key_valid {member : List UInt16} (h : member ≠ []) (h0 : unitAt member 0 ≠ 0xffff)
    (hz : ∃ i < 16, unitAt member i ≠ 0) :
    (privateKey member).length = 32 ∧ 0 < leNat (privateKey member).reverse ∧ leNat (privateKey member).reverse < secpN ∧
    privateKey [] = [] := by
  rw [privateKey, pad_eq h]
  refine ⟨by rw [utf16le_length, List.length_map, List.length_range], ?_, ?_, rfl⟩
  · obtain ⟨i, hi, hne⟩ := hz
    have hlt := (unitAt member i).toNat_lt
    have hne' : (unitAt member i).toNat ≠ 0 := fun e => hne (UInt16.toNat_inj.1 e)
    have hin : ∀ b, b ∈ [UInt8.ofNat ((unitAt member i).toNat % 256), UInt8.ofNat ((unitAt member i).toNat / 256)] →
        b ∈ (utf16le ((List.range 16).map (unitAt member))).reverse := fun b hb =>
      List.mem_reverse.2 (List.mem_flatMap.2 ⟨_, List.mem_map.2 ⟨i, List.mem_range.2 hi, rfl⟩, hb⟩)
    by_cases hl : (unitAt member i).toNat % 256 = 0
    · refine leNat_pos (hin _ (List.mem_cons_of_mem _ (List.mem_cons_self ..))) fun e => ?_
      have := congrArg UInt8.toNat e
      rw [UInt8.toNat_ofNat'] at this
      simp at this
      omega
    · refine leNat_pos (hin _ (List.mem_cons_self ..)) fun e => ?_
      have := congrArg UInt8.toNat e
      rw [UInt8.toNat_ofNat'] at this
      simp at this
      omega
  · have hlt := (unitAt member 0).toNat_lt
    have hne : (unitAt member 0).toNat ≠ 65535 := fun e => h0 (UInt16.toNat_inj.1 e)
    have hsplit : (List.range 16).map (unitAt member) = unitAt member 0 :: (List.range 15).map fun i => unitAt member (i + 1) := by
      rw [List.range_succ_eq_map, List.map_cons, List.map_map]
      rfl
    have htl : (utf16le ((List.range 15).map fun i => unitAt member (i + 1))).length = 30 := by
      rw [utf16le_length, List.length_map, List.length_range]
    rw [hsplit, utf16le_cons]
    generalize utf16le ((List.range 15).map fun i => unitAt member (i + 1)) = tl at *
    generalize (unitAt member 0).toNat = u at *
    rw [List.reverse_append, leNat_append, List.length_reverse, htl]
    have hb := leNat_lt tl.reverse
    rw [List.length_reverse, htl] at hb
    generalize leNat tl.reverse = r at *
    have hN : 65535 * 256 ^ 30 < secpN := by decide +kernel
    have h2 : leNat [UInt8.ofNat (u % 256), UInt8.ofNat (u / 256)].reverse ≤ 65534 := by
      simp only [List.reverse_cons, List.reverse_nil, List.nil_append, List.cons_append, leNat, UInt8.toNat_ofNat']
      omega
    generalize leNat [UInt8.ofNat (u % 256), UInt8.ofNat (u / 256)].reverse = v at *
    generalize 256 ^ 30 = B at *
    generalize secpN = N at *
    nlinarith

/-- The names of the benchmark programs, in UTF-16. -/
def wizard : List UInt16 := [0xd83e, 0xddd9]
def detective : List UInt16 := [0xd83d, 0xdd75, 0xfe0f]
def ninja : List UInt16 := [0xd83e, 0xdd77]
def scientist : List UInt16 := [0xd83d, 0xdc69, 0x200d, 0xd83d, 0xdd2c]

/-- The hypotheses are met: the key of the prover is valid, and no two of the four names give the same key. -/
example : leNat (privateKey wizard).reverse < secpN ∧ [wizard, detective, ninja, scientist].Pairwise (privateKey · ≠ privateKey ·) :=
  ⟨(benchmark_key_valid (by decide) (by decide) ⟨0, by decide⟩).2.2.1, by decide +kernel⟩

/-- The first hypothesis is needed: the key of the name `0xffff` is not below the order. -/
example : secpN ≤ leNat (privateKey [0xffff]).reverse := by decide +kernel

/-- A name and the name written twice give the same key. -/
example : privateKey wizard = privateKey (wizard ++ wizard) :=
  (benchmark_keys_differ (by decide) (by decide)).2 (by decide)

end Spartan.Bench
