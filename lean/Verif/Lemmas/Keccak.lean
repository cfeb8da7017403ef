import Verif.Model.Keccak
import Verif.Spec.Keccak
import Mathlib.Tactic.FieldSimp
import Mathlib.Tactic.Ring
import Mathlib.Tactic.NormNum
import Mathlib.Tactic.FinCases

/-! The Keccak circuit on bits. -/

namespace Spartan.Circuit
open Spartan.Spec.Keccak

variable {F : Type} [Field F]

/-- A bit as a field element. -/
def bit (b : Bool) : F := if b then 1 else 0

theorem xor_bit (a b : Bool) (o : F) : XOR (bit a) (bit b) o ↔ o = bit (a ^^ b) := by
  cases a <;> cases b <;> simp [XOR, bit] <;> ring_nf

theorem or_bit (a b : Bool) (o : F) : OR (bit a) (bit b) o ↔ o = bit (a || b) := by
  cases a <;> cases b <;> simp [OR, bit]

theorem and_bit (a b : Bool) (o : F) : AND (bit a) (bit b) o ↔ o = bit (a && b) := by
  cases a <;> cases b <;> simp [AND, bit]

/-- The signals of a lane are the given bits. -/
def LRel (s : ℕ → F) (L : Fin 64 → Bool) : Prop := ∀ i, (h : i < 64) → s i = bit (L ⟨i, h⟩)

/-- The signals of a state are the given bits. -/
def SRel (s : ℕ → F) (A : State) : Prop := ∀ x y : Fin 5, LRel (lane s (5 * y + x)) (A x y)

def encL (L : Fin 64 → Bool) : ℕ → F := fun i => bit (L (Fin.ofNat 64 i))

theorem encL_rel (L : Fin 64 → Bool) : LRel (encL (F := F) L) L := by
  intro i h
  simp only [encL]
  congr 2
  exact Fin.ext (Nat.mod_eq_of_lt h)

def encS (A : State) : ℕ → F := fun i =>
  bit (A (Fin.ofNat 5 (i / 64)) (Fin.ofNat 5 (i / 320)) (Fin.ofNat 64 i))

theorem encS_rel (A : State) : SRel (encS (F := F) A) A := by
  intro x y i h
  have hx := x.2
  have hy := y.2
  simp only [encS, lane]
  have h1 : Fin.ofNat 5 (((5 * (y : ℕ) + x) * 64 + i) / 64) = x := Fin.ext (by simp [Fin.ofNat]; omega)
  have h2 : Fin.ofNat 5 (((5 * (y : ℕ) + x) * 64 + i) / 320) = y := Fin.ext (by simp [Fin.ofNat]; omega)
  have h3 : Fin.ofNat 64 ((5 * (y : ℕ) + x) * 64 + i) = ⟨i, h⟩ := Fin.ext (by simp [Fin.ofNat]; omega)
  rw [h1, h2, h3]

theorem exists_lrel {L : Fin 64 → Bool} {Q : (ℕ → F) → Prop} {R : Prop}
    (h : ∀ m, LRel m L → (Q m ↔ R)) : (∃ m, LRel m L ∧ Q m) ↔ R :=
  ⟨fun ⟨m, h1, h2⟩ => (h m h1).mp h2, fun hr => ⟨_, encL_rel L, (h _ (encL_rel L)).mpr hr⟩⟩

theorem exists_srel {A : State} {Q : (ℕ → F) → Prop} {R : Prop}
    (h : ∀ m, SRel m A → (Q m ↔ R)) : (∃ m, SRel m A ∧ Q m) ↔ R :=
  ⟨fun ⟨m, h1, h2⟩ => (h m h1).mp h2, fun hr => ⟨_, encS_rel A, (h _ (encS_rel A)).mpr hr⟩⟩

section Lanes
variable {a b c d e out : ℕ → F} {A B C D' E : Fin 64 → Bool}

theorem xorArray_iff (ha : LRel a A) (hb : LRel b B) :
    XorArray 64 a b out ↔ LRel out fun z => A z ^^ B z :=
  forall₂_congr fun i h => by rw [ha i h, hb i h, xor_bit]

theorem xorArraySingle_iff (ha : LRel a A) :
    XorArraySingle 64 a out ↔ LRel out fun z => !(A z) :=
  forall₂_congr fun i h => by
    rw [ha i h, show (1 : F) = bit true from rfl, xor_bit, Bool.xor_true]

theorem andArray_iff (ha : LRel a A) (hb : LRel b B) :
    AndArray 64 a b out ↔ LRel out fun z => A z && B z :=
  forall₂_congr fun i h => by rw [ha i h, hb i h, and_bit]

theorem xor3_iff (ha : LRel a A) (hb : LRel b B) (hc : LRel c C) :
    Xor3 64 a b c out ↔ LRel out fun z => A z ^^ B z ^^ C z := by
  have key : ∀ x y z : Bool, (bit x * (1 - 2 * bit y - 2 * bit z + 4 * (bit y * bit z)) + bit y + bit z
      - 2 * (bit y * bit z) : F) = bit (x ^^ y ^^ z) := by
    intro x y z
    cases x <;> cases y <;> cases z <;> simp [bit] <;> ring_nf
  constructor
  · rintro ⟨mid, h⟩ i hi
    obtain ⟨h1, h2⟩ := h i hi
    rw [h2, h1, ha i hi, hb i hi, hc i hi, key]
  · intro h
    refine ⟨fun k => b k * c k, fun i hi => ⟨rfl, ?_⟩⟩
    beta_reduce
    rw [h i hi, ha i hi, hb i hi, hc i hi, key]

theorem xor5_iff (ha : LRel a A) (hb : LRel b B) (hc : LRel c C) (hd : LRel d D') (he : LRel e E) :
    Xor5 64 a b c d e out ↔ LRel out fun z => A z ^^ B z ^^ C z ^^ D' z ^^ E z := by
  simp only [Xor5, xor3_iff ha hb hc, exists_and_left]
  refine exists_lrel fun m hm => ?_
  simp only [xorArray_iff hm hd]
  exact exists_lrel fun m' hm' => xorArray_iff hm' he

/-- A right shift, a left shift and an or make a rotation. -/
theorem stepRhoPi_iff {k : ℕ} (hk : k % 64 ≠ 0) (ha : LRel a A) :
    stepRhoPi (k % 64) (64 - k % 64) a out ↔ LRel out fun z => A (z - Fin.ofNat 64 k) := by
  have hlt : k % 64 < 64 := Nat.mod_lt _ (by norm_num)
  generalize hk' : k % 64 = k' at hk hlt
  have key : ∀ i, (h : i < 64) → ∀ o : F,
      OR (if i + (64 - k') ≥ 64 then 0 else a (i + (64 - k'))) (if i < k' then 0 else a (i - k')) o ↔
        o = bit (A (⟨i, h⟩ - Fin.ofNat 64 k)) := by
    intro i h o
    have hs : ((⟨i, h⟩ - Fin.ofNat 64 k : Fin 64) : ℕ) = (64 - k' + i) % 64 := by
      rw [Fin.sub_def, ← hk']; rfl
    by_cases hi : i < k'
    · have hf : (⟨i, h⟩ - Fin.ofNat 64 k : Fin 64) = ⟨i + (64 - k'), by omega⟩ := by
        apply Fin.ext; rw [hs, Nat.mod_eq_of_lt (by omega)]; exact Nat.add_comm _ _
      rw [if_neg (by omega), if_pos hi, ha _ (by omega), hf]
      simp [OR]
    · have hf : (⟨i, h⟩ - Fin.ofNat 64 k : Fin 64) = ⟨i - k', by omega⟩ := by
        apply Fin.ext; rw [hs]; show _ = i - k'; omega
      rw [if_pos (by omega), if_neg hi, ha _ (by omega), hf]
      simp [OR]
  constructor
  · rintro ⟨aux0, aux1, h0, h1, h2⟩ i h
    have := h2 i h
    rwa [h0 i h, h1 i h, key i h] at this
  · intro h
    refine ⟨_, _, fun i _ => rfl, fun i _ => rfl, fun i hi => ?_⟩
    rw [key i hi]; exact h i hi

theorem D_iff (ha : LRel a A) (hb : LRel b B) :
    D 1 (64 - 1) a b out ↔ LRel out fun z => B z ^^ A (z - 1) := by
  have hr : ∀ m : ℕ → F, stepRhoPi 1 (64 - 1) a m ↔ LRel m fun z => A (z - 1) :=
    fun m => stepRhoPi_iff (k := 1) (by norm_num) ha
  have : D 1 (64 - 1) a b out ↔ ∃ m, stepRhoPi 1 (64 - 1) a m ∧ XorArray 64 b m out := by
    constructor
    · rintro ⟨x, y, z, h1, h2, h3, h4⟩; exact ⟨z, ⟨x, y, h1, h2, h3⟩, h4⟩
    · rintro ⟨z, ⟨x, y, h1, h2, h3⟩, h4⟩; exact ⟨x, y, z, h1, h2, h3, h4⟩
  simp only [this, hr]
  exact exists_lrel fun m hm => xorArray_iff hb hm

theorem stepChi_iff (ha : LRel a A) (hb : LRel b B) (hc : LRel c C) :
    stepChi a b c out ↔ LRel out fun z => A z ^^ (!(B z) && C z) := by
  simp only [stepChi, xorArraySingle_iff hb, exists_and_left]
  refine exists_lrel fun m hm => ?_
  simp only [andArray_iff hm hc]
  exact exists_lrel fun m' hm' => xorArray_iff ha hm'

end Lanes

/-! ### The step mappings -/

theorem thetaColumns_mem : ∀ t ∈ thetaColumns, ∃ x : Fin 5,
    t = ((x : ℕ), 5 * 0 + (x : ℕ), 5 * 1 + (x : ℕ), 5 * 2 + (x : ℕ), 5 * 3 + (x : ℕ), 5 * 4 + (x : ℕ)) := by
  decide
theorem mem_thetaColumns : ∀ x : Fin 5,
    ((x : ℕ), 5 * 0 + (x : ℕ), 5 * 1 + (x : ℕ), 5 * 2 + (x : ℕ), 5 * 3 + (x : ℕ), 5 * 4 + (x : ℕ)) ∈
      thetaColumns := by decide
theorem thetaD_mem : ∀ t ∈ thetaD, ∃ x : Fin 5, t = ((x : ℕ), ((x + 1 : Fin 5) : ℕ), ((x - 1 : Fin 5) : ℕ)) := by
  decide
theorem mem_thetaD : ∀ x : Fin 5, ((x : ℕ), ((x + 1 : Fin 5) : ℕ), ((x - 1 : Fin 5) : ℕ)) ∈ thetaD := by
  decide
theorem thetaOut_mem : ∀ t ∈ thetaOut, ∃ x y : Fin 5,
    t = (5 * (y : ℕ) + (x : ℕ), 5 * (y : ℕ) + (x : ℕ), (x : ℕ)) := by decide
theorem mem_thetaOut : ∀ x y : Fin 5, (5 * (y : ℕ) + (x : ℕ), 5 * (y : ℕ) + (x : ℕ), (x : ℕ)) ∈ thetaOut := by
  decide

theorem theta_iff {inp out : ℕ → F} {A : State} (h : SRel inp A) :
    Theta inp out ↔ SRel out (theta A) := by
  have h5 : ∀ (x : Fin 5) (c : ℕ → F), Xor5 64 (lane inp (5 * 0 + (x : ℕ))) (lane inp (5 * 1 + (x : ℕ)))
      (lane inp (5 * 2 + (x : ℕ))) (lane inp (5 * 3 + (x : ℕ))) (lane inp (5 * 4 + (x : ℕ))) c ↔
        LRel c (parity A x) :=
    fun x c => xor5_iff (h x 0) (h x 1) (h x 2) (h x 3) (h x 4)
  constructor
  · rintro ⟨c, d, hc, hd, ho⟩ x y
    have hc' : ∀ x : Fin 5, LRel (c x) (parity A x) := by
      intro x
      have := hc _ (mem_thetaColumns x)
      exact (h5 x _).mp this
    have hd' : LRel (d x) (fun z => parity A (x - 1) z ^^ parity A (x + 1) (z - 1)) := by
      have := hd _ (mem_thetaD x)
      exact (D_iff (hc' _) (hc' _)).mp this
    have := ho _ (mem_thetaOut x y)
    exact (xorArray_iff (h x y) hd').mp this
  · intro ho
    have hof : ∀ x : Fin 5, Fin.ofNat 5 (x : ℕ) = x := fun x => Fin.ext (Nat.mod_eq_of_lt x.2)
    have hc : ∀ x : Fin 5, LRel (F := F) (encL (parity A (Fin.ofNat 5 (x : ℕ)))) (parity A x) := by
      intro x; rw [hof]; exact encL_rel _
    refine ⟨fun x => encL (parity A (Fin.ofNat 5 x)),
      fun x => encL fun z => parity A (Fin.ofNat 5 x - 1) z ^^ parity A (Fin.ofNat 5 x + 1) (z - 1),
      ?_, ?_, ?_⟩
    · intro t ht
      obtain ⟨x, rfl⟩ := thetaColumns_mem t ht
      exact (h5 x _).mpr (hc x)
    · intro t ht
      obtain ⟨x, rfl⟩ := thetaD_mem t ht
      refine (D_iff (hc _) (hc _)).mpr ?_
      simp only [hof]
      exact encL_rel _
    · intro t ht
      obtain ⟨x, y, rfl⟩ := thetaOut_mem t ht
      refine (xorArray_iff (h x y) (encL_rel _)).mpr ?_
      simp only [hof]
      exact ho x y

theorem rhoPiSteps_mem : ∀ t ∈ rhoPiSteps, ∃ x y : Fin 5, offset (x + 3 * y) x % 64 ≠ 0 ∧
    t = (5 * (y : ℕ) + (x : ℕ), 5 * (x : ℕ) + ((x + 3 * y : Fin 5) : ℕ), offset (x + 3 * y) x % 64) := by
  decide +kernel
theorem mem_rhoPiSteps : ∀ x y : Fin 5, (x = 0 ∧ y = 0) ∨ offset (x + 3 * y) x % 64 ≠ 0 ∧
    (5 * (y : ℕ) + (x : ℕ), 5 * (x : ℕ) + ((x + 3 * y : Fin 5) : ℕ), offset (x + 3 * y) x % 64) ∈ rhoPiSteps := by
  decide +kernel

theorem pi_rho_zero (A : State) (z : Fin 64) : pi (rho A) 0 0 z = A 0 0 z := by
  have h1 : (0 + 3 * 0 : Fin 5) = 0 := by decide
  have h2 : offset 0 0 = 0 := by decide +kernel
  have h3 : z - Fin.ofNat 64 0 = z := sub_zero z
  rw [pi, rho, h1, h2, h3]

theorem rhoPi_iff {inp out : ℕ → F} {A : State} (h : SRel inp A) :
    RhoPi inp out ↔ SRel out (pi (rho A)) := by
  constructor
  · rintro ⟨h0, hs⟩ x y
    rcases mem_rhoPiSteps x y with ⟨rfl, rfl⟩ | ⟨hn, hm⟩
    · intro i hi
      have : lane inp 0 i = _ := h 0 0 i hi
      rw [pi_rho_zero]
      exact (h0 i hi).trans this
    · exact (stepRhoPi_iff hn (h _ _)).mp (hs _ hm)
  · intro ho
    refine ⟨fun i hi => ?_, fun t ht => ?_⟩
    · have h1 : lane out 0 i = _ := ho 0 0 i hi
      have h2 : lane inp 0 i = _ := h 0 0 i hi
      rw [h1, h2, pi_rho_zero]
    · obtain ⟨x, y, hn, rfl⟩ := rhoPiSteps_mem t ht
      exact (stepRhoPi_iff hn (h _ _)).mpr (ho x y)

theorem chiSteps_mem : ∀ t ∈ chiSteps, ∃ x y : Fin 5,
    t = (5 * (y : ℕ) + (x : ℕ), 5 * (y : ℕ) + (x : ℕ), 5 * (y : ℕ) + ((x + 1 : Fin 5) : ℕ),
      5 * (y : ℕ) + ((x + 2 : Fin 5) : ℕ)) := by decide
theorem mem_chiSteps : ∀ x y : Fin 5,
    (5 * (y : ℕ) + (x : ℕ), 5 * (y : ℕ) + (x : ℕ), 5 * (y : ℕ) + ((x + 1 : Fin 5) : ℕ),
      5 * (y : ℕ) + ((x + 2 : Fin 5) : ℕ)) ∈ chiSteps := by decide

theorem chi_iff {inp out : ℕ → F} {A : State} (h : SRel inp A) :
    Chi inp out ↔ SRel out (chi A) := by
  constructor
  · intro hs x y
    have := hs _ (mem_chiSteps x y)
    exact (stepChi_iff (h x y) (h (x + 1) y) (h (x + 2) y)).mp this
  · intro ho t ht
    obtain ⟨x, y, rfl⟩ := chiSteps_mem t ht
    exact (stepChi_iff (h x y) (h (x + 1) y) (h (x + 2) y)).mpr (ho x y)

theorem rc_table : ∀ r < 24, ∀ z : Fin 64, (rcTable.getD r 0).testBit z = roundConstant r z := by
  decide +kernel

theorem and_one_cast (n i : ℕ) : ((n >>> i &&& 1 : ℕ) : F) = bit (n.testBit i) := by
  rw [Nat.testBit, Nat.and_comm, Nat.one_and_eq_mod_two]
  rcases Nat.mod_two_eq_zero_or_one (n >>> i) with h | h <;> rw [h] <;> simp [bit]

theorem iota_iff {r : ℕ} (hr : r < 24) {inp out : ℕ → F} {A : State} (h : SRel inp A) :
    Iota r inp out ↔ SRel out (iota r A) := by
  have h00 : LRel inp (A 0 0) := by
    intro i hi
    simpa [lane] using h 0 0 i hi
  have hrc : ∀ rc : ℕ → F, RC r rc ↔ LRel rc (roundConstant r) := fun rc =>
    forall₂_congr fun i hi => by rw [and_one_cast, ← rc_table r hr ⟨i, hi⟩]
  simp only [Iota, hrc]
  refine exists_lrel fun rc hm => ?_
  rw [xorArray_iff h00 hm]
  constructor
  · rintro ⟨h1, h2⟩ x y
    by_cases hxy : x = 0 ∧ y = 0
    · obtain ⟨rfl, rfl⟩ := hxy
      intro i hi
      have := h1 i hi
      simpa [lane, iota] using this
    · intro i hi
      have hx := x.2
      have hy := y.2
      have hne : (x : ℕ) ≠ 0 ∨ (y : ℕ) ≠ 0 := by
        by_contra hc
        push Not at hc
        exact hxy ⟨Fin.ext hc.1, Fin.ext hc.2⟩
      have h3 := h x y i hi
      have h4 := h2 ((5 * (y : ℕ) + x) * 64 + i) (by omega) (by omega)
      simp only [lane] at h3 ⊢
      rw [h4, h3]
      simp [iota, hxy]
  · intro ho
    constructor
    · intro i hi
      have := ho 0 0 i hi
      simpa [lane, iota] using this
    · intro i h1 h2
      have hx : i / 64 % 5 < 5 := Nat.mod_lt _ (by norm_num)
      have hy : i / 320 < 5 := by omega
      have hz : i % 64 < 64 := Nat.mod_lt _ (by norm_num)
      have e : (5 * (i / 320) + i / 64 % 5) * 64 + i % 64 = i := by omega
      have h3 := h ⟨_, hx⟩ ⟨_, hy⟩ (i % 64) hz
      have h4 := ho ⟨_, hx⟩ ⟨_, hy⟩ (i % 64) hz
      simp only [lane, e] at h3 h4
      have hne : ¬ ((⟨i / 64 % 5, hx⟩ : Fin 5) = 0 ∧ (⟨i / 320, hy⟩ : Fin 5) = 0) := by
        rintro ⟨e1, e2⟩
        have e1 := congrArg Fin.val e1
        have e2 := congrArg Fin.val e2
        simp only [Fin.val_zero] at e1 e2
        omega
      rw [h3, h4, iota, if_neg hne]

theorem round_iff {r : ℕ} (hr : r < 24) {inp out : ℕ → F} {A : State} (h : SRel inp A) :
    KeccakfRound r inp out ↔ SRel out (round r A) := by
  simp only [KeccakfRound, theta_iff h, exists_and_left]
  refine exists_srel fun m hm => ?_
  simp only [rhoPi_iff hm]
  refine exists_srel fun m hm => ?_
  simp only [chi_iff hm]
  exact exists_srel fun m hm => iota_iff hr hm

theorem srel_congr {s t : ℕ → F} {A : State} (h : ∀ i < 25 * 64, s i = t i) : SRel s A ↔ SRel t A := by
  refine forall₂_congr fun x y => forall₂_congr fun i hi => ?_
  have hx := x.2
  have hy := y.2
  simp only [lane]
  rw [h _ (by omega)]

theorem keccakf_iff {inp out : ℕ → F} {A : State} (h : SRel inp A) :
    Keccakf inp out ↔ SRel out (keccakF A) := by
  constructor
  · rintro ⟨round, hr, ho⟩
    have : ∀ i < 24, SRel (round i) (rounds (i + 1) A) := by
      intro i
      induction i with
      | zero => intro hi; exact (round_iff hi h).mp (hr 0 hi)
      | succ i ih =>
        intro hi
        exact (round_iff hi (ih (by omega))).mp (hr (i + 1) hi)
    exact (srel_congr ho).mpr (this 23 (by norm_num))
  · intro ho
    refine ⟨fun i => if i = 23 then out else encS (rounds (i + 1) A), fun i hi => ?_, fun j _ => rfl⟩
    have h1 : SRel (if i = 0 then inp else if i - 1 = 23 then out else encS (rounds (i - 1 + 1) A))
        (rounds i A) := by
      by_cases hi0 : i = 0
      · rw [if_pos hi0, hi0]; exact h
      · rw [if_neg hi0, if_neg (by omega), show i - 1 + 1 = i by omega]; exact encS_rel _
    refine (round_iff hi h1).mpr ?_
    beta_reduce
    by_cases h23 : i = 23
    · rw [if_pos h23, h23]; exact ho
    · rw [if_neg h23]; exact encS_rel _

/-! ### The sponge -/

theorem srel_iff {s : ℕ → F} {A : State} :
    SRel s A ↔ ∀ i < 25 * 64, s i =
      bit (A (Fin.ofNat 5 (i / 64)) (Fin.ofNat 5 (i / 320)) (Fin.ofNat 64 i)) := by
  constructor
  · intro h i hi
    have e : (5 * (i / 320 % 5) + i / 64 % 5) * 64 + i % 64 = i := by omega
    have := h (Fin.ofNat 5 (i / 64)) (Fin.ofNat 5 (i / 320)) (i % 64) (Nat.mod_lt _ (by norm_num))
    simp only [lane, Fin.ofNat, e] at this
    exact this
  · intro h
    exact (srel_congr h).mpr (encS_rel A)

theorem srel_ofBits {s : ℕ → F} {S : ℕ → Bool} :
    SRel s (ofBits S) ↔ ∀ i < 25 * 64, s i = bit (S i) := by
  rw [srel_iff]
  refine forall₂_congr fun i hi => ?_
  have e : 64 * (5 * (i / 320 % 5) + i / 64 % 5) + i % 64 = i := by omega
  simp only [ofBits, Fin.ofNat, e]

theorem pad_getD {m : List Bool} (hm : m.length ≤ 1080) (i : ℕ) :
    (pad m).getD i false = if i < m.length then m.getD i false else
      decide (i = m.length ∨ i = 1087) := by
  have h1 : (rate - (m.length + 2) % rate) % rate = 1086 - m.length := by
    simp only [rate]; omega
  rw [pad, h1]
  simp only [List.getD_eq_getElem?_getD, List.getElem?_append, List.length_append, List.length_cons,
    List.length_nil, List.length_replicate]
  by_cases h : i < m.length
  · rw [if_pos (by omega), if_pos (by omega), if_pos h, if_pos h]
  · simp only [if_neg h]
    by_cases h2 : i = m.length
    · rw [if_pos (by omega), if_pos (by omega), h2]; simp
    · by_cases h3 : i < 1087
      · rw [if_pos (by omega), if_neg (by omega), List.getElem?_replicate, if_pos (by omega)]
        simp; omega
      · rw [if_neg (by omega)]
        by_cases h4 : i = 1087
        · rw [show i - (m.length + (0 + 1) + (1086 - m.length)) = 0 by omega]; simp [h4]
        · rw [List.getElem?_eq_none (by simp; omega)]; simp [h2, h4]

theorem pad_length {m : List Bool} (hm : m.length ≤ 1080) : (pad m).length = rate := by
  have h1 : (rate - (m.length + 2) % rate) % rate = 1086 - m.length := by
    simp only [rate]; omega
  rw [pad, h1]
  simp only [List.length_append, List.length_cons, List.length_nil, List.length_replicate, rate]
  omega

theorem pad_iff {m : List Bool} (hm : m.length ≤ 1080) {inp out : ℕ → F}
    (hi : ∀ i < m.length, inp i = bit (m.getD i false)) :
    Pad m.length inp out ↔ ∀ i < 1088, out i = bit ((pad m).getD i false) := by
  have h1 : ∀ i < 8, Nat.testBit 0x01 i = decide (i = 0) := by decide
  have h80 : ∀ i < 8, Nat.testBit 0x80 i = decide (i = 7) := by decide
  set P : ℕ → Bool := fun i => if i < m.length then m.getD i false else decide (i = m.length) with hP
  have hpad : ∀ i < 1080, (pad m).getD i false = P i := by
    intro i h
    rw [pad_getD hm, hP]
    by_cases h2 : i < m.length
    · simp only [if_pos h2]
    · simp only [if_neg h2]; congr 1; rw [eq_iff_iff]; omega
  have hpad' : ∀ i < 8, (pad m).getD (1080 + i) false = (P (1080 + i) || decide (i = 7)) := by
    intro i h
    rw [pad_getD hm, hP]
    simp only [if_neg (show ¬ 1080 + i < m.length by omega)]
    rw [← Bool.decide_or]; congr 1; rw [eq_iff_iff]; omega
  constructor
  · rintro ⟨out2, aux, e1, e2, e3, e4, e5, e6⟩
    have hout2 : ∀ i < 1088, out2 i = bit (P i) := by
      intro i h
      rw [hP]
      by_cases c1 : i < m.length
      · simp only [if_pos c1, e1 i c1, hi i c1]
      · by_cases c2 : i < m.length + 8
        · have := e2 (i - m.length) (by omega)
          rw [and_one_cast, h1 _ (by omega), show m.length + (i - m.length) = i by omega] at this
          rw [this]; simp only [if_neg c1]; congr 2; rw [eq_iff_iff]; omega
        · rw [e3 i (by omega) h]
          simp only [if_neg c1, if_neg (show ¬ i = m.length by omega), bit, decide_false]
          simp; omega
    intro i h
    by_cases c : i < 1080
    · rw [e6 i c, hout2 i h, hpad i c]
    · have h8 := e4 (i - 1080) (by omega)
      have h9 := e5 (i - 1080) (by omega)
      simp only [Nat.reduceMul, Nat.reduceSub, show 1080 + (i - 1080) = i by omega] at h8 h9
      rw [and_one_cast, h80 _ (by omega), hout2 i h, or_bit] at h8
      have := hpad' (i - 1080) (by omega)
      rw [show 1080 + (i - 1080) = i by omega] at this
      rw [h9, h8, this]
  · intro ho
    refine ⟨fun i => bit (P i), fun i => out (136 * 8 - 8 + i), ?_, ?_, ?_, ?_, ?_, ?_⟩
    · intro i h; rw [hi i h, hP]; simp only [if_pos h]
    · intro i h
      rw [and_one_cast, h1 i h, hP]
      simp only [if_neg (show ¬ m.length + i < m.length by omega)]
      congr 2; rw [eq_iff_iff]; omega
    · intro i h h'
      rw [hP]
      simp only [if_neg (show ¬ i < m.length by omega), bit]
      simp; omega
    · intro i h
      show OR (bit (P (1080 + i))) ((0x80 >>> i &&& 1 : ℕ) : F) (out (1080 + i))
      rw [and_one_cast, h80 i h, or_bit, ho _ (by omega), hpad' i h]
    · intro i _; rfl
    · intro i h
      show out i = bit (P i)
      rw [ho i (by omega), hpad i h]

theorem absorb_iff {block : List Bool} (hb : block.length = 1088) {b out : ℕ → F}
    (h : ∀ i < 1088, b i = bit (block.getD i false)) :
    Absorb (fun _ => 0) b out ↔ SRel out (absorb (fun _ _ _ => false) block) := by
  have hiff : ∀ newS : ℕ → F, ((∀ i < 136 / 8, XorArray 64 (lane (fun _ => 0) i) (lane b i) (lane newS i)) ∧
      (∀ i, 136 / 8 * 64 ≤ i → i < 25 * 64 → newS i = 0)) ↔
      SRel newS (ofBits fun i => block.getD i false) := by
    intro newS
    rw [srel_ofBits]
    have hg : ∀ i, 1088 ≤ i → block.getD i false = false := by
      intro i hi
      rw [List.getD_eq_getElem?_getD, List.getElem?_eq_none (by omega)]; rfl
    have hx : ∀ j < 1088, ∀ o : F, XOR 0 (b j) o ↔ o = bit (block.getD j false) := by
      intro j hj o
      rw [h j hj, show (0 : F) = bit false from rfl, xor_bit, Bool.false_xor]
    constructor
    · rintro ⟨h1, h2⟩ i hi
      by_cases c : i < 1088
      · have := h1 (i / 64) (by omega) (i % 64) (Nat.mod_lt _ (by norm_num))
        simp only [lane, show i / 64 * 64 + i % 64 = i by omega] at this
        exact (hx i c _).mp this
      · rw [h2 i (by omega) hi, hg i (by omega)]; rfl
    · intro hs
      refine ⟨fun i hi j hj => ?_, fun i hi hi' => ?_⟩
      · exact (hx _ (by omega) _).mpr (hs _ (by omega))
      · rw [hs i hi', hg i (by omega)]; rfl
  have : Absorb (fun _ => 0) b out ↔ ∃ newS, SRel newS (ofBits fun i => block.getD i false) ∧
      Keccakf newS out := by
    constructor
    · rintro ⟨s, h1, h2, h3⟩; exact ⟨s, (hiff s).mp ⟨h1, h2⟩, h3⟩
    · rintro ⟨s, h1, h3⟩; exact ⟨s, ((hiff s).mpr h1).1, ((hiff s).mpr h1).2, h3⟩
  rw [this]
  refine exists_srel fun s hs => ?_
  rw [keccakf_iff hs]
  simp only [absorb, Bool.false_xor]

theorem blocks_one {P : List Bool} (h : P.length = rate) : blocks P = [P] := by
  rw [blocks, h, Nat.div_self (by decide), List.range_one, List.map_singleton, Nat.mul_zero,
    List.drop_zero, List.take_of_length_le h.le]

/-- The Keccak circuit on a message of at most 1080 bits outputs the first bits of the sponge. -/
theorem keccak_iff {m : List Bool} (hm : m.length ≤ 1080) {d : ℕ} (hd : d ≤ 1600) {inp out : ℕ → F}
    (hi : ∀ i < m.length, inp i = bit (m.getD i false)) :
    Keccak m.length d inp out ↔ ∀ i < d, out i = bit ((keccak d m).getD i false) := by
  have hf : ∀ f : ℕ → F, Final m.length inp f ↔ SRel f (absorb (fun _ _ _ => false) (pad m)) := by
    intro f
    simp only [Final, pad_iff hm hi]
    constructor
    · rintro ⟨p, h1, h2⟩; exact (absorb_iff (pad_length hm) h1).mp h2
    · intro h
      exact ⟨fun i => bit ((pad m).getD i false), fun _ _ => rfl,
        (absorb_iff (pad_length hm) fun _ _ => rfl).mpr h⟩
  simp only [Keccak, hf]
  refine exists_srel fun f hs => ?_
  rw [srel_iff] at hs
  have hk : ∀ i < d, (keccak d m).getD i false = absorb (fun _ _ _ => false) (pad m)
      (Fin.ofNat 5 (i / 64)) (Fin.ofNat 5 (i / 320)) (Fin.ofNat 64 i) := by
    intro i h
    rw [keccak, blocks_one (pad_length hm), List.getD_eq_getElem?_getD, List.getElem?_take, if_pos h]
    simp only [List.foldl_cons, List.foldl_nil, toBits]
    rw [List.getElem?_ofFn, dif_pos (by omega)]
    rfl
  constructor
  · intro hq i h
    have := hq (i / 64) (by omega) (i % 64) (Nat.mod_lt _ (by norm_num)) (by omega)
    rw [show i / 64 * 64 + i % 64 = i by omega] at this
    rw [this, hs i (by omega), hk i h]
  · intro h i _ j _ hl
    rw [h _ hl, hk _ hl, hs _ (by omega)]

end Spartan.Circuit
