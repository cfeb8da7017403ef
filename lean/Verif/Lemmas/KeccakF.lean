import Verif.Model.KeccakF
import Verif.Lemmas.KeccakEval
import Verif.Lemmas.LimbsRep
import Verif.Spec.Shake

/-! The permutation of the keccak crate is Keccak-f[1600]. -/

namespace Spartan.KeccakF
open Spec.Keccak (rotl par thetaLane rhoPiLane chiLane lanesRound offsets ofLanes)

theorem rotateLeft_eq {w k : ℕ} (hw : w < 2 ^ 64) (hk : k < 64) : rotateLeft w k = rotl w k := by
  rw [rotateLeft, rotl, Nat.mod_eq_of_lt hw, Nat.mod_eq_of_lt hk]

/-- 25 words. -/
structure Words (s : List ℕ) : Prop where
  len : s.length = 25
  lt : ∀ w ∈ s, w < 2 ^ 64

theorem Words.getD {s : List ℕ} (h : Words s) (i : ℕ) : s.getD i 0 < 2 ^ 64 := by
  rw [List.getD_eq_getElem?_getD]
  cases e : s[i]? with
  | none => simp
  | some w => exact h.lt w (List.mem_of_getElem? e)

theorem rotateLeft_lt (w k : ℕ) : rotateLeft w k < 2 ^ 64 := Nat.mod_lt _ (by norm_num)

theorem getD_map_range {f : ℕ → ℕ} {n i : ℕ} (h : i < n) : ((List.range n).map f).getD i 0 = f i := by
  rw [List.getD_eq_getElem?_getD, List.getElem?_map, List.getElem?_range h]; rfl

theorem par_eq (s : List ℕ) (x : Fin 5) :
    (List.range 5).foldl (fun a y => a ^^^ s.getD (5 * y + (x : ℕ)) 0) 0 = par s x := by
  show 0 ^^^ _ ^^^ _ ^^^ _ ^^^ _ ^^^ _ = _
  rw [Nat.zero_xor]; rfl

theorem par_lt {s : List ℕ} (h : Words s) (x : Fin 5) : par s x < 2 ^ 64 := by
  unfold par
  exact Nat.xor_lt_two_pow (Nat.xor_lt_two_pow (Nat.xor_lt_two_pow (Nat.xor_lt_two_pow (h.getD _) (h.getD _)) (h.getD _)) (h.getD _)) (h.getD _)

theorem theta_getD {s : List ℕ} (h : Words s) (x y : Fin 5) :
    (theta s).getD (5 * (y : ℕ) + (x : ℕ)) 0 = thetaLane s x y := by
  have hx := x.2
  have hy := y.2
  unfold theta
  rw [getD_map_range (by omega)]
  have e1 : ((5 * (y : ℕ) + (x : ℕ)) % 5 + 4) % 5 = ((x - 1 : Fin 5) : ℕ) := by
    rw [Fin.sub_def]; show _ = (5 - 1 + (x : ℕ)) % 5; omega
  have e2 : ((5 * (y : ℕ) + (x : ℕ)) % 5 + 1) % 5 = ((x + 1 : Fin 5) : ℕ) := by
    rw [Fin.add_def]; show _ = ((x : ℕ) + 1) % 5; omega
  rw [e1, e2, getD_map_range (x - 1).2, getD_map_range (x + 1).2, par_eq, par_eq, rotateLeft_eq (par_lt h _) (by norm_num)]
  rfl

theorem words_map {f : ℕ → ℕ} (h : ∀ i < 25, f i < 2 ^ 64) : Words ((List.range 25).map f) :=
  ⟨by simp, by
    intro w hw
    obtain ⟨i, hi, rfl⟩ := List.mem_map.mp hw
    exact h i (List.mem_range.mp hi)⟩

theorem theta_words {s : List ℕ} (h : Words s) : Words (theta s) := by
  unfold theta
  refine words_map fun i hi => Nat.xor_lt_two_pow (h.getD _) (Nat.xor_lt_two_pow ?_ (rotateLeft_lt _ _))
  rw [getD_map_range (Nat.mod_lt _ (by norm_num))]
  have := par_eq s ⟨(i % 5 + 4) % 5, Nat.mod_lt _ (by norm_num)⟩
  rw [this]
  exact par_lt h _

section
attribute [local irreducible] rotateLeft rotl

theorem rhoPi_list (a0 a1 a2 a3 a4 a5 a6 a7 a8 a9 a10 a11 a12 a13 a14 a15 a16 a17 a18 a19 a20 a21 a22 a23 a24 : ℕ) :
    rhoPi [a0, a1, a2, a3, a4, a5, a6, a7, a8, a9, a10, a11, a12, a13, a14, a15, a16, a17, a18, a19, a20, a21, a22, a23, a24] =
      [a0, rotateLeft a6 44, rotateLeft a12 43, rotateLeft a18 21, rotateLeft a24 14, rotateLeft a3 28, rotateLeft a9 20, rotateLeft a10 3, rotateLeft a16 45, rotateLeft a22 61, rotateLeft a1 1, rotateLeft a7 6, rotateLeft a13 25, rotateLeft a19 8, rotateLeft a20 18, rotateLeft a4 27, rotateLeft a5 36, rotateLeft a11 10, rotateLeft a17 15, rotateLeft a23 56, rotateLeft a2 62, rotateLeft a8 55, rotateLeft a14 39, rotateLeft a15 41, rotateLeft a21 2] := by
  simp [rhoPi, rho, pi, show List.range 24 = [0, 1, 2, 3, 4, 5, 6, 7, 8, 9, 10, 11, 12, 13, 14, 15, 16, 17, 18, 19, 20, 21, 22, 23] from rfl]

theorem exists_list {s : List ℕ} (h : s.length = 25) : ∃ a0 a1 a2 a3 a4 a5 a6 a7 a8 a9 a10 a11 a12 a13 a14 a15 a16 a17 a18 a19 a20 a21 a22 a23 a24, s = [a0, a1, a2, a3, a4, a5, a6, a7, a8, a9, a10, a11, a12, a13, a14, a15, a16, a17, a18, a19, a20, a21, a22, a23, a24] := by
  match s, h with
  | [a0, a1, a2, a3, a4, a5, a6, a7, a8, a9, a10, a11, a12, a13, a14, a15, a16, a17, a18, a19, a20, a21, a22, a23, a24], _ =>
    exact ⟨a0, a1, a2, a3, a4, a5, a6, a7, a8, a9, a10, a11, a12, a13, a14, a15, a16, a17, a18, a19, a20, a21, a22, a23, a24, rfl⟩

theorem rotl_mod (w k : ℕ) : rotl w k = rotl w (k % 64) := by
  unfold rotl; rw [Nat.mod_mod]

theorem rhoPi_getD {s : List ℕ} (h : Words s) : ∀ x y : Fin 5,
    (rhoPi s).getD (5 * (y : ℕ) + (x : ℕ)) 0 =
      rotl (s.getD (5 * (x : ℕ) + ((x + 3 * y : Fin 5) : ℕ)) 0) (offsets.getD (5 * (x : ℕ) + ((x + 3 * y : Fin 5) : ℕ)) 0) := by
  intro x y
  rw [rotl_mod, ← rotateLeft_eq (h.getD _) (Nat.mod_lt _ (by norm_num))]
  have h0 : s.getD 0 0 = rotateLeft (s.getD 0 0) 0 := by
    unfold rotateLeft
    have h2 := h.getD 0
    rw [Nat.shiftLeft_zero, Nat.shiftRight_eq_div_pow, Nat.div_eq_of_lt h2, Nat.or_zero, Nat.mod_eq_of_lt h2]
  obtain ⟨a0, a1, a2, a3, a4, a5, a6, a7, a8, a9, a10, a11, a12, a13, a14, a15, a16, a17, a18, a19, a20, a21, a22, a23, a24, rfl⟩ := exists_list h.len
  rw [rhoPi_list]
  fin_cases x <;> fin_cases y <;> first | exact h0 | rfl

end

theorem rhoPi_words {s : List ℕ} (h : Words s) : Words (rhoPi s) := by
  have key : ∀ (l : List ℕ) (c : List ℕ × ℕ), Words c.1 → Words (l.foldl (fun (c : List ℕ × ℕ) x =>
      (c.1.set (pi.getD x 0) (rotateLeft c.2 (rho.getD x 0)), c.1.getD (pi.getD x 0) 0)) c).1 := by
    intro l
    induction l with
    | nil => exact fun _ h => h
    | cons x l ih =>
      intro c hc
      rw [List.foldl_cons]
      refine ih _ ⟨by simp [hc.len], fun w hw => ?_⟩
      rcases List.mem_or_eq_of_mem_set hw with hw | rfl
      · exact hc.lt w hw
      · exact rotateLeft_lt _ _
  exact key _ _ h

theorem chi_getD (s : List ℕ) (x y : Fin 5) : (chi s).getD (5 * (y : ℕ) + (x : ℕ)) 0 =
    s.getD (5 * (y : ℕ) + (x : ℕ)) 0 ^^^ ((s.getD (5 * (y : ℕ) + ((x + 1 : Fin 5) : ℕ)) 0 ^^^ (2 ^ 64 - 1)) &&&
      s.getD (5 * (y : ℕ) + ((x + 2 : Fin 5) : ℕ)) 0) := by
  have hx := x.2
  have hy := y.2
  unfold chi
  rw [getD_map_range (by omega)]
  have e1 : 5 * ((5 * (y : ℕ) + (x : ℕ)) / 5) + ((5 * (y : ℕ) + (x : ℕ)) % 5 + 1) % 5 = 5 * (y : ℕ) + ((x + 1 : Fin 5) : ℕ) := by
    rw [Fin.add_def]; show _ = _ + ((x : ℕ) + 1) % 5; omega
  have e2 : 5 * ((5 * (y : ℕ) + (x : ℕ)) / 5) + ((5 * (y : ℕ) + (x : ℕ)) % 5 + 2) % 5 = 5 * (y : ℕ) + ((x + 2 : Fin 5) : ℕ) := by
    rw [Fin.add_def]; show _ = _ + ((x : ℕ) + 2) % 5; omega
  simp only [e1, e2]

theorem chi_words {s : List ℕ} (h : Words s) : Words (chi s) := by
  unfold chi
  refine words_map fun i hi => Nat.xor_lt_two_pow (h.getD _) (Nat.and_lt_two_pow _ (h.getD _))

theorem iota_words {s : List ℕ} {r : ℕ} (h : Words s) (hr : r < 2 ^ 64) : Words (iota r s) := by
  refine ⟨by simp [iota, h.len], fun w hw => ?_⟩
  rcases List.mem_or_eq_of_mem_set hw with hw | rfl
  · exact h.lt w hw
  · exact Nat.xor_lt_two_pow (h.getD _) hr

theorem round_eq {s : List ℕ} (h : Words s) (r : ℕ) : iota r (chi (rhoPi (theta s))) = lanesRound s r := by
  have hchi : ∀ x y : Fin 5, (chi (rhoPi (theta s))).getD (5 * (y : ℕ) + (x : ℕ)) 0 = chiLane s x y := by
    intro x y
    have hrp : ∀ x y : Fin 5, (rhoPi (theta s)).getD (5 * (y : ℕ) + (x : ℕ)) 0 = rhoPiLane s x y := by
      intro x y
      rw [rhoPi_getD (theta_words h), theta_getD h]
      rfl
    rw [chi_getD, hrp, hrp, hrp]
    rfl
  have hl : (chi (rhoPi (theta s))).length = 25 := (chi_words (rhoPi_words (theta_words h))).len
  generalize chi (rhoPi (theta s)) = t at hchi hl ⊢
  apply List.ext_getElem
  · simp [iota, hl, lanesRound]
  unfold iota lanesRound
  intro i h1 h2
  have hi : i < 25 := by simpa using h2
  have hc := hchi (Fin.ofNat 5 i) (Fin.ofNat 5 (i / 5))
  have e : 5 * ((Fin.ofNat 5 (i / 5) : Fin 5) : ℕ) + ((Fin.ofNat 5 i : Fin 5) : ℕ) = i := by
    show 5 * (i / 5 % 5) + i % 5 = i
    omega
  rw [e] at hc
  rw [List.getElem_set, List.getElem_map, List.getElem_range]
  by_cases h0 : i = 0
  · subst h0
    rw [if_pos rfl, if_pos rfl]
    have h00 := hchi 0 0
    rw [show 5 * ((0 : Fin 5) : ℕ) + ((0 : Fin 5) : ℕ) = 0 from rfl] at h00
    rw [h00]
  · rw [if_neg (Ne.symm h0), if_neg h0]
    rw [List.getD_eq_getElem?_getD, List.getElem?_eq_getElem (by rw [hl]; exact hi), Option.getD_some] at hc
    exact hc

theorem f1600_rounds {s : List ℕ} (h : Words s) (n : ℕ) (hn : n ≤ 24) :
    Words ((rc.take n).foldl (fun s r => iota r (chi (rhoPi (theta s)))) s) ∧
    ofLanes ((rc.take n).foldl (fun s r => iota r (chi (rhoPi (theta s)))) s) = Spec.Keccak.rounds n (ofLanes s) := by
  induction n with
  | zero => exact ⟨h, rfl⟩
  | succ n ih =>
    obtain ⟨hw, e⟩ := ih (by omega)
    have hl : rc.length = 24 := rfl
    have hrc : rc[n]'(by omega) < 2 ^ 64 := by
      have : ∀ r ∈ rc, r < 2 ^ 64 := by decide +kernel
      exact this _ (List.getElem_mem _)
    rw [List.take_succ_eq_append_getElem (by omega), List.foldl_append, List.foldl_cons, List.foldl_nil]
    refine ⟨iota_words (chi_words (rhoPi_words (theta_words hw))) hrc, ?_⟩
    rw [round_eq hw, Spec.Keccak.rounds, ← e]
    refine (Spec.Keccak.round_ofLanes (fun z => ?_) _).symm
    have := Circuit.rc_table n (by omega) z
    rw [← this]
    rw [show Circuit.rcTable = rc from rfl, List.getD_eq_getElem?_getD, List.getElem?_eq_getElem (by omega)]
    rfl

/-- The permutation of the crate is Keccak-f[1600]. -/
theorem f1600_eq {s : List ℕ} (h : Words s) : Words (f1600 s) ∧ ofLanes (f1600 s) = Spec.Keccak.keccakF (ofLanes s) := by
  have := f1600_rounds h 24 le_rfl
  exact this

theorem toWords_words (st : Merlin.KState) : Words (toWords st) := by
  refine words_map fun i _ => ?_
  have := MParams.leNat_lt ((List.range 8).map fun j => Merlin.byteAt st (8 * i + j))
  simpa using this

theorem leNat_testBit : ∀ (l : List UInt8) (j : ℕ) {b : ℕ}, b < 8 →
    (leNat l).testBit (8 * j + b) = (l.getD j 0).toNat.testBit b
  | [], j, b, _ => by simp [leNat]
  | x :: l, 0, b, hb => by
    have hx := x.toNat_lt
    rw [leNat, Nat.mul_zero, Nat.zero_add, show x.toNat + 256 * leNat l = 2 ^ 8 * leNat l + x.toNat by ring,
      Nat.testBit_two_pow_mul_add _ (by omega), if_pos hb]
    rfl
  | x :: l, j + 1, b, hb => by
    have hx := x.toNat_lt
    rw [leNat, show x.toNat + 256 * leNat l = 2 ^ 8 * leNat l + x.toNat by ring,
      Nat.testBit_two_pow_mul_add _ (by omega), if_neg (by omega), show 8 * (j + 1) + b - 8 = 8 * j + b by omega,
      leNat_testBit l j hb]
    rfl

theorem sum_bits (N : ℕ) : ((List.range 8).map fun j => if N.testBit j then 2 ^ j else 0).sum = N % 256 := by
  have key : ∀ j, (if N.testBit j then 2 ^ j else 0) = N / 2 ^ j % 2 * 2 ^ j := by
    intro j
    rw [Nat.testBit_eq_decide_div_mod_eq]
    rcases Nat.mod_two_eq_zero_or_one (N / 2 ^ j) with h | h <;> simp [h]
  simp only [key]
  simp only [List.range_succ, List.range_zero, List.map_append, List.map_cons, List.map_nil, List.sum_append,
    List.sum_cons, List.sum_nil, List.nil_append]
  omega

theorem sum_bits_eq {K : ℕ → Bool} {N : ℕ} (h : ∀ j < 8, K j = N.testBit j) :
    ((List.range 8).map fun j => if K j then 2 ^ j else 0).sum = N % 256 := by
  rw [← sum_bits]
  congr 1
  refine List.map_congr_left fun j hj => ?_
  rw [h j (List.mem_range.mp hj)]

theorem toBits_getD (A : Spec.Keccak.State) {i : ℕ} (hi : i < 1600) :
    (Spec.Keccak.toBits A).getD i false = A (Fin.ofNat 5 (i / 64)) (Fin.ofNat 5 (i / 320)) (Fin.ofNat 64 i) := by
  unfold Spec.Keccak.toBits
  rw [List.getD_eq_getElem?_getD, List.getElem?_eq_getElem (by rw [List.length_ofFn]; exact hi), List.getElem_ofFn]
  rfl

theorem toBits_ofLanes (L : List ℕ) {i : ℕ} (hi : i < 1600) :
    (Spec.Keccak.toBits (ofLanes L)).getD i false = (L.getD (i / 64) 0).testBit (i % 64) := by
  rw [toBits_getD _ hi]
  unfold ofLanes
  have e : 5 * ((Fin.ofNat 5 (i / 320) : Fin 5) : ℕ) + ((Fin.ofNat 5 (i / 64) : Fin 5) : ℕ) = i / 64 := by
    show 5 * (i / 320 % 5) + i / 64 % 5 = i / 64
    omega
  rw [e]
  rfl

theorem ofBits_toWords (st : Merlin.KState) : ofLanes (toWords st) = Spec.Keccak.ofBits (Spec.Keccak.bitOf st) := by
  funext x y z
  have hx := x.2
  have hy := y.2
  have hz := z.2
  unfold ofLanes toWords Spec.Keccak.ofBits Spec.Keccak.bitOf
  rw [getD_map_range (by omega)]
  have e : (z : ℕ) = 8 * ((z : ℕ) / 8) + (z : ℕ) % 8 := by omega
  rw [e, leNat_testBit _ _ (Nat.mod_lt _ (by norm_num)), List.getD_eq_getElem?_getD, List.getElem?_map,
    List.getElem?_range (by omega)]
  have hb : 8 * (5 * (y : ℕ) + (x : ℕ)) + (z : ℕ) / 8 < 200 := by omega
  simp only [Option.map_some, Option.getD_some, Merlin.byteAt, dif_pos hb]
  have e1 : (⟨8 * (5 * (y : ℕ) + (x : ℕ)) + (z : ℕ) / 8, hb⟩ : Fin 200) =
      Fin.ofNat 200 ((64 * (5 * (y : ℕ) + (x : ℕ)) + (8 * ((z : ℕ) / 8) + (z : ℕ) % 8)) / 8) := by
    apply Fin.ext
    show 8 * (5 * (y : ℕ) + (x : ℕ)) + (z : ℕ) / 8 = (64 * (5 * (y : ℕ) + (x : ℕ)) + (8 * ((z : ℕ) / 8) + (z : ℕ) % 8)) / 8 % 200
    omega
  have e2 : (64 * (5 * (y : ℕ) + (x : ℕ)) + (8 * ((z : ℕ) / 8) + (z : ℕ) % 8)) % 8 = (z : ℕ) % 8 := by omega
  rw [e1, e2]

/-- On bytes too. -/
theorem keccakBytes_eq : keccakBytes = Spec.Keccak.permBytes := by
  funext st j
  have hj := j.2
  unfold keccakBytes Spec.Keccak.permBytes ofWords
  rw [← ofBits_toWords, ← (f1600_eq (toWords_words st)).2]
  have e : Spec.Keccak.byteAt (Spec.Keccak.toBits (ofLanes (f1600 (toWords st)))) j =
      ((f1600 (toWords st)).getD (j.val / 8) 0 >>> (8 * (j.val % 8))) % 256 := by
    unfold Spec.Keccak.byteAt
    refine sum_bits_eq fun b hb => ?_
    rw [toBits_ofLanes _ (by omega), Nat.testBit_shiftRight, show (8 * j.val + b) / 64 = j.val / 8 by omega,
      show (8 * j.val + b) % 64 = 8 * (j.val % 8) + b by omega]
  rw [e]
  apply UInt8.toNat.inj
  simp

end Spartan.KeccakF
