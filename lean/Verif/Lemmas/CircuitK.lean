import Verif.Lemmas.Circuits

/-! Bit decomposition, comparisons and the scalar recoding circuit. -/

namespace Spartan.Circuit

open Spec

section Bits

variable {F : Type} [Field F]

theorem areBits_sum {n v : ℕ} {b : ℕ → F} (hv : v < 2 ^ n) (h : AreBits n v b) :
    ∑ i ∈ Finset.range n, b i * 2 ^ i = (v : F) := by
  induction n generalizing v with
  | zero => obtain rfl : v = 0 := by simpa using hv
            simp
  | succ n ih =>
    have h1 : AreBits n (v % 2 ^ n) b := by
      intro i hi
      rw [h i (by omega), Nat.testBit_mod_two_pow, decide_eq_true hi, Bool.true_and]
    rw [Finset.sum_range_succ, ih (Nat.mod_lt _ (by positivity)) h1, h n (by omega)]
    have hd : v / 2 ^ n < 2 := by
      rw [Nat.div_lt_iff_lt_mul (by positivity)]; rw [pow_succ] at hv; omega
    have hm := Nat.mod_add_div v (2 ^ n)
    rw [Nat.testBit_eq_decide_div_mod_eq]
    rcases Nat.le_one_iff_eq_zero_or_eq_one.mp (Nat.lt_succ_iff.mp hd) with h0 | h0 <;>
      rw [h0] at hm ⊢
    · rw [mul_zero, add_zero] at hm
      rw [hm]; simp
    · rw [mul_one] at hm
      conv_rhs => rw [← hm]
      simp

theorem num2Bits_iff {n : ℕ} {x : F} {b : ℕ → F} :
    Num2Bits n x b ↔ ∃ v < 2 ^ n, AreBits n v b ∧ (v : F) = x := by
  constructor
  · rintro ⟨hb, hs⟩
    induction n generalizing x with
    | zero => exact ⟨0, by norm_num, fun i hi => absurd hi (by omega), by simpa using hs⟩
    | succ n ih =>
      rw [Finset.sum_range_succ] at hs
      obtain ⟨v, hv, hvb, hvx⟩ := ih (fun i hi => hb i (by omega)) rfl
      have hn : b n = 0 ∨ b n = 1 := by
        rcases mul_eq_zero.mp (hb n (by omega)) with h | h
        · exact .inl h
        · exact .inr (sub_eq_zero.mp h)
      rcases hn with h | h
      · refine ⟨v, by rw [pow_succ]; omega, ?_, by rw [← hs, ← hvx, h]; ring⟩
        intro i hi
        rcases Nat.lt_succ_iff_lt_or_eq.mp hi with h' | rfl
        · exact hvb i h'
        · rw [h, Nat.testBit_lt_two_pow hv]; simp
      · refine ⟨2 ^ n + v, by rw [pow_succ]; omega, ?_, ?_⟩
        · intro i hi
          rcases Nat.lt_succ_iff_lt_or_eq.mp hi with h' | rfl
          · rw [Nat.testBit_two_pow_add_gt h']; exact hvb i h'
          · rw [h, Nat.testBit_two_pow_add_eq, Nat.testBit_lt_two_pow hv]; simp
        · rw [← hs, ← hvx, h]; push_cast; ring
  · rintro ⟨v, hv, hvb, rfl⟩
    refine ⟨fun i hi => ?_, areBits_sum hv hvb⟩
    rw [hvb i hi]; split <;> ring

end Bits

/-- Numbers below `p` with the same image are equal. -/
theorem cast_inj {a b : ℕ} (ha : a < secpP) (hb : b < secpP) : (a : Fp) = b ↔ a = b := by
  constructor
  · intro h
    have := (ZMod.natCast_eq_natCast_iff' _ _ _).mp h
    rwa [Nat.mod_eq_of_lt ha, Nat.mod_eq_of_lt hb] at this
  · rintro rfl; rfl

theorem secpP_big : 2 ^ 255 < secpP ∧ secpP < 2 ^ 256 := by decide +kernel

theorem lessThan_iff {n : ℕ} (hn : n + 1 ≤ 255) {a b : ℕ} (h1 : b ≤ a + 2 ^ n) (h2 : a < b + 2 ^ n)
    {o : Fp} : LessThan n (a : Fp) (b : Fp) o ↔ o = if a < b then 1 else 0 := by
  have hp : 2 ^ (n + 1) < secpP :=
    lt_of_le_of_lt (Nat.pow_le_pow_right (by norm_num) hn) secpP_big.1
  have hc : ((a + 2 ^ n - b : ℕ) : Fp) = (a : Fp) + 2 ^ n - b := by
    rw [Nat.cast_sub h1, Nat.cast_add, Nat.cast_pow]; norm_num
  have hlt : a + 2 ^ n - b < 2 ^ (n + 1) := by rw [pow_succ]; omega
  have hbit : (a + 2 ^ n - b).testBit n = decide (b ≤ a) := by
    rw [Nat.testBit_eq_decide_div_mod_eq]
    congr 1
    by_cases h : b ≤ a
    · have : (a + 2 ^ n - b) / 2 ^ n = 1 := by
        apply Nat.div_eq_of_lt_le <;> rw [pow_succ] at * <;> omega
      simp [this, h]
    · have : (a + 2 ^ n - b) / 2 ^ n = 0 := Nat.div_eq_of_lt (by omega)
      simp [this, h]
  rw [LessThan]
  constructor
  · rintro ⟨bits, hb, rfl⟩
    obtain ⟨v, hv, hvb, hvx⟩ := num2Bits_iff.mp hb
    rw [← hc, cast_inj (by omega) (by omega)] at hvx
    subst hvx
    rw [hvb n (by omega), hbit]
    by_cases h : b ≤ a
    · rw [if_pos (by simpa using h), if_neg (by omega)]; ring
    · rw [if_neg (by simpa using h), if_pos (by omega)]; ring
  · intro h
    refine ⟨fun i => if (a + 2 ^ n - b).testBit i then 1 else 0,
      num2Bits_iff.mpr ⟨_, hlt, fun i _ => rfl, hc⟩, ?_⟩
    rw [h]
    simp only [hbit]
    by_cases h : b ≤ a
    · rw [if_neg (by omega), if_pos (by simpa using h)]; ring
    · rw [if_pos (by omega), if_neg (by simpa using h)]; ring

theorem k_consts : q = secpN ∧ tQ = 2 * secpN - 2 ^ 256 ∧ qlo < 2 ^ 128 ∧ qhi < 2 ^ 128 ∧
    tQlo < qlo ∧ tQhi + 1 = qhi ∧ 0 < tQhi ∧ q = qhi * 2 ^ 128 + qlo ∧ tQ = tQhi * 2 ^ 128 + tQlo ∧
    secpP < 2 ^ 256 ∧ 2 ^ 256 - 2 ^ 33 < secpP := by
  decide +kernel

/-- Is `A + 2^128 H` at least `q`, computed the way the circuit does. -/
def kQuot (A H : ℕ) : Prop :=
  qhi < H + A / 2 ^ 128 ∨ (H + A / 2 ^ 128 = qhi ∧ qlo ≤ A % 2 ^ 128)

instance (A H : ℕ) : Decidable (kQuot A H) := inferInstanceAs (Decidable (_ ∨ _))

theorem kWith_iff {A H : ℕ} (hA : A < 2 ^ 129) (hH : H < 2 ^ 129) {kl kh out : ℕ → Fp} :
    KWith ((A : Fp) - tQlo) ((H : Fp) - tQhi) kl kh out ↔
      Num2Bits 256 ((A : Fp) + (if A < qlo ∧ kQuot A H then 2 ^ 128 else 0) -
        (if kQuot A H then (qlo : Fp) else 0)) kl ∧
      Num2Bits 256 ((H : Fp) - (if A < qlo ∧ kQuot A H then 1 else 0) -
        (if kQuot A H then (qhi : Fp) else 0)) kh ∧
      ∀ i < 128, out i = kl i ∧ out (i + 128) = kh i := by
  obtain ⟨_, _, c1, c2, c3, c4, c5, _, _, _, _⟩ := k_consts
  have hp := secpP_big.1
  have hpow : (2 : ℕ) ^ 255 = 2 ^ 126 * 2 ^ 129 := by norm_num
  have hp130 : 2 ^ 129 + 2 ^ 129 < secpP := lt_trans (by norm_num) hp
  have hcarry : A / 2 ^ 128 < 2 := by
    rw [Nat.div_lt_iff_lt_mul (by positivity)]; rw [show 2 * 2 ^ 128 = 2 ^ 129 by norm_num]; exact hA
  have e1 : (A : Fp) - tQlo + tQlo = (A : ℕ) := by ring
  have e2 : (H : Fp) - tQhi + tQhi = (H : ℕ) := by ring
  have hA' : ∀ {inB : ℕ → Fp}, Num2Bits (128 + 1) (A : Fp) inB → inB 128 = ((A / 2 ^ 128 : ℕ) : Fp) := by
    intro inB hin
    obtain ⟨v, hv, hvb, hvx⟩ := num2Bits_iff.mp hin
    rw [cast_inj (by omega) (by omega)] at hvx
    subst hvx
    rw [hvb 128 (by norm_num), Nat.testBit_eq_decide_div_mod_eq]
    have : v / 2 ^ 128 = 0 ∨ v / 2 ^ 128 = 1 := by omega
    rcases this with h | h <;> rw [h] <;> simp
  have e3 : (H : Fp) + ((A / 2 ^ 128 : ℕ) : Fp) = ((H + A / 2 ^ 128 : ℕ) : Fp) := (Nat.cast_add _ _).symm
  have e4 : (A : Fp) - ((A / 2 ^ 128 : ℕ) : Fp) * 2 ^ 128 = ((A % 2 ^ 128 : ℕ) : Fp) := by
    have := congrArg (Nat.cast (R := Fp)) (Nat.mod_add_div A (2 ^ 128))
    rw [Nat.cast_add, Nat.cast_mul, Nat.cast_pow] at this
    rw [← this]; norm_num; ring
  have hm : A % 2 ^ 128 < 2 ^ 128 := Nat.mod_lt _ (by positivity)
  have e129 : (2 : ℕ) ^ 129 = 2 * 2 ^ 128 := by norm_num
  have ha : ∀ {o : Fp}, GreaterThan 129 ((H + A / 2 ^ 128 : ℕ) : Fp) (qhi : Fp) o ↔
      o = if qhi < H + A / 2 ^ 128 then 1 else 0 := fun {o} =>
    lessThan_iff (by norm_num) (by omega) (by omega)
  have hb : ∀ {o : Fp}, IsEqual ((H + A / 2 ^ 128 : ℕ) : Fp) (qhi : Fp) o ↔
      o = if H + A / 2 ^ 128 = qhi then 1 else 0 := by
    intro o
    rw [isEqual_iff]
    exact Eq.congr_right (if_congr (cast_inj (by omega) (by omega)) rfl rfl)
  have hg : ∀ {o : Fp}, GreaterEqThan 129 ((A % 2 ^ 128 : ℕ) : Fp) (qlo : Fp) o ↔
      o = if qlo ≤ A % 2 ^ 128 then 1 else 0 := by
    intro o
    rw [GreaterEqThan, show ((A % 2 ^ 128 : ℕ) : Fp) + 1 = ((A % 2 ^ 128 + 1 : ℕ) : Fp) by
        rw [Nat.cast_add, Nat.cast_one],
      lessThan_iff (by norm_num) (by omega) (by omega)]
    rw [if_congr (Nat.lt_succ_iff (m := qlo) (n := A % 2 ^ 128)) rfl rfl]
  have ht : ∀ {o : Fp}, GreaterThan 129 (qlo : Fp) (A : Fp) o ↔
      o = if A < qlo then 1 else 0 := fun {o} =>
    lessThan_iff (by norm_num) (by omega) (lt_of_lt_of_le hA (Nat.le_add_left _ _))
  have hq : ∀ (a b g : Fp), a = (if qhi < H + A / 2 ^ 128 then 1 else 0) →
      b = (if H + A / 2 ^ 128 = qhi then 1 else 0) → g = (if qlo ≤ A % 2 ^ 128 then 1 else 0) →
      b * g + a - b * g * a = if kQuot A H then 1 else 0 := by
    intro a b g h1 h2 h3
    rw [h1, h2, h3]
    by_cases i1 : qhi < H + A / 2 ^ 128
    · have i2 : ¬ (H + A / 2 ^ 128 = qhi) := by omega
      rw [if_pos i1, if_neg i2, if_pos (c := kQuot A H) (Or.inl i1)]; ring
    · by_cases i2 : H + A / 2 ^ 128 = qhi
      · by_cases i3 : qlo ≤ A % 2 ^ 128
        · rw [if_neg i1, if_pos i2, if_pos i3, if_pos (c := kQuot A H) (Or.inr ⟨i2, i3⟩)]; ring
        · rw [if_neg i1, if_pos i2, if_neg i3, if_neg (c := kQuot A H)]
          · ring
          · rintro (h | h)
            · exact i1 h
            · exact i3 h.2
      · rw [if_neg i1, if_neg i2, if_neg (c := kQuot A H)]
        · ring
        · rintro (h | h)
          · exact i1 h
          · exact i2 h.1
  have hbr : ∀ (t u : Fp), t = (if A < qlo then 1 else 0) → u = (if kQuot A H then 1 else 0) →
      t * u = if A < qlo ∧ kQuot A H then 1 else 0 := by
    intro t u h1 h2
    rw [h1, h2]
    by_cases i1 : A < qlo <;> by_cases i2 : kQuot A H <;> simp [i1, i2]
  have m1 : ∀ (c : Prop) [Decidable c] (x : Fp), (if c then (1 : Fp) else 0) * x = if c then x else 0 := by
    intro c _ x; split <;> ring
  constructor
  · rintro ⟨inB, carry, ahi, bhi, alo, blo, al, be, ga, bg, iq, th, bo, klo, khi,
      h1, h2, h3, h4, h5, h6, h7, h8, h9, h10, h11, h12, h13, h14, h15, h16, h17, h18⟩
    rw [e1] at h1 h5 h12 h14
    rw [e2] at h3 h15
    rw [hA' h1] at h2
    rw [h2, e3] at h3
    rw [h2, e4] at h5
    rw [h3, h4, ha] at h7
    rw [h3, h4, hb] at h8
    rw [h5, h6, hg] at h9
    rw [AND] at h10 h13
    rw [OR, h10, hq _ _ _ h7 h8 h9] at h11
    rw [ht] at h12
    rw [hbr _ _ h12 h11] at h13
    rw [h14, h13, h11, m1, m1] at h16
    rw [h15, h13, h11, m1, m1] at h17
    exact ⟨h16, h17, h18⟩
  · rintro ⟨h16, h17, h18⟩
    obtain ⟨inB, hin⟩ : ∃ inB, Num2Bits (128 + 1) (A : Fp) inB :=
      ⟨fun i => if A.testBit i then 1 else 0, num2Bits_iff.mpr ⟨A, hA, fun i _ => rfl, rfl⟩⟩
    refine ⟨inB, _, _, _, _, _,
      if qhi < H + A / 2 ^ 128 then 1 else 0, if H + A / 2 ^ 128 = qhi then 1 else 0,
      if qlo ≤ A % 2 ^ 128 then 1 else 0, _, _, if A < qlo then 1 else 0, _, _, _,
      ?_, rfl, rfl, rfl, rfl, rfl, ?_, ?_, ?_, rfl, rfl, ?_, rfl, rfl, rfl, ?_, ?_, h18⟩
    · rw [e1]; exact hin
    · rw [e2, hA' hin, e3]; exact ha.mpr rfl
    · rw [e2, hA' hin, e3]; exact hb.mpr rfl
    · rw [e1, hA' hin, e4]; exact hg.mpr rfl
    · rw [e1]; exact ht.mpr rfl
    · rw [e1, hq _ _ _ rfl rfl rfl, hbr _ _ rfl rfl, m1, m1]; exact h16
    · rw [e2, hq _ _ _ rfl rfl rfl, hbr _ _ rfl rfl, m1, m1]; exact h17

theorem areBits_unique {n v w : ℕ} {b : ℕ → Fp} (hv : v < 2 ^ n) (hw : w < 2 ^ n)
    (h1 : AreBits n v b) (h2 : AreBits n w b) : v = w := by
  apply Nat.eq_of_testBit_eq
  intro i
  by_cases hi : i < n
  · have := (h1 i hi).symm.trans (h2 i hi)
    by_cases a : v.testBit i <;> by_cases c : w.testBit i <;> simp_all
  · rw [Nat.testBit_lt_two_pow (lt_of_lt_of_le hv (Nat.pow_le_pow_right (by norm_num) (by omega))),
      Nat.testBit_lt_two_pow (lt_of_lt_of_le hw (Nat.pow_le_pow_right (by norm_num) (by omega)))]

theorem num2Bits_canonical {v : ℕ} (hv : v < secpP) {b : ℕ → Fp} :
    (Num2Bits 256 (v : Fp) b ∧ Canonical 256 secpP b) ↔ AreBits 256 v b := by
  have hp := secpP_big.2
  constructor
  · rintro ⟨h1, w, hw, h2⟩
    obtain ⟨u, hu, hub, hux⟩ := num2Bits_iff.mp h1
    have h3 := areBits_unique hu (lt_trans hw hp) hub h2
    subst h3
    rw [cast_inj hw hv] at hux
    rw [← hux]; exact hub
  · intro h
    exact ⟨num2Bits_iff.mpr ⟨v, lt_trans hv hp, h, rfl⟩, v, hv, h⟩

theorem areBits_split {a c : ℕ} (ha : a < 2 ^ 128) {kl kh out : ℕ → Fp}
    (ho : ∀ i < 128, out i = kl i ∧ out (i + 128) = kh i) (h1 : AreBits 128 a kl)
    (h2 : AreBits 128 c kh) : AreBits 256 (2 ^ 128 * c + a) out := by
  intro i hi
  rw [Nat.testBit_two_pow_mul_add _ ha]
  by_cases h : i < 128
  · rw [if_pos h, (ho i h).1, h1 i h]
  · rw [if_neg h]
    have := (ho (i - 128) (by omega)).2
    rw [show i - 128 + 128 = i by omega] at this
    rw [this, h2 _ (by omega)]

theorem areBits_mono {n m v : ℕ} {b : ℕ → Fp} (h : AreBits n v b) (hm : m ≤ n) : AreBits m v b :=
  fun i hi => h i (by omega)

/-- Signals that are zero or one are the bits of a number. -/
theorem exists_areBits {n : ℕ} {b : ℕ → Fp} (h : ∀ i < n, b i = 0 ∨ b i = 1) :
    ∃ k < 2 ^ n, AreBits n k b := by
  have : Num2Bits n (∑ i ∈ Finset.range n, b i * 2 ^ i) b := by
    refine ⟨fun i hi => ?_, rfl⟩
    rcases h i hi with h | h <;> rw [h] <;> ring
  obtain ⟨v, hv, hb, _⟩ := num2Bits_iff.mp this
  exact ⟨v, hv, hb⟩

/-- Any 256 bits are an output of `K`. -/
theorem k_of_bits {k : ℕ} (hk : k < 2 ^ 256) {out : ℕ → Fp} (ho : AreBits 256 k out) (s : Fp) :
    K s out := by
  obtain ⟨_, _, c1, c2, c3, c4, c5, c6, _, _, _⟩ := k_consts
  have e129 : (2 : ℕ) ^ 129 = 2 * 2 ^ 128 := by norm_num
  have e256 : (2 : ℕ) ^ 256 = 2 ^ 128 * 2 ^ 128 := by norm_num
  have hlo : k % 2 ^ 128 < 2 ^ 128 := Nat.mod_lt _ (by positivity)
  have hhi : k / 2 ^ 128 < 2 ^ 128 := by
    rw [Nat.div_lt_iff_lt_mul (by positivity), ← e256]; exact hk
  have hk' := Nat.mod_add_div k (2 ^ 128)
  obtain ⟨lo, hlo'⟩ : ∃ lo, lo = k % 2 ^ 128 := ⟨_, rfl⟩
  obtain ⟨hi, hhi'⟩ : ∃ hi, hi = k / 2 ^ 128 := ⟨_, rfl⟩
  rw [← hlo'] at hlo hk'
  rw [← hhi'] at hhi hk'
  have h256 : ∀ {v : ℕ}, v < 2 ^ 128 → v < 2 ^ 256 := fun h => lt_trans h (by norm_num)
  have hout : ∀ i < 128, out i = (fun i => if lo.testBit i then (1 : Fp) else 0) i ∧
      out (i + 128) = (fun i => if hi.testBit i then (1 : Fp) else 0) i := by
    intro i hi'
    have hni : ¬ i + 128 < 128 := by omega
    rw [ho i (by omega), ho (i + 128) (by omega), ← hk', Nat.add_comm lo,
      Nat.testBit_two_pow_mul_add _ hlo, Nat.testBit_two_pow_mul_add _ hlo, if_pos hi',
      if_neg hni, Nat.add_sub_cancel]
    exact ⟨rfl, rfl⟩
  have bitsOf : ∀ {v : ℕ}, v < 2 ^ 128 → Num2Bits 256 (v : Fp) (fun i => if v.testBit i then 1 else 0) :=
    fun h => num2Bits_iff.mpr ⟨_, h256 h, fun i _ => rfl, rfl⟩
  by_cases hq : k < q
  · refine ⟨_, _, _, _, (kWith_iff (A := lo) (H := hi) (by omega) (by omega)).mpr ⟨?_, ?_, hout⟩⟩
    all_goals
      have hn : ¬ kQuot lo hi := by
        rw [kQuot, Nat.div_eq_of_lt hlo, Nat.mod_eq_of_lt hlo]
        rintro (h | ⟨h, h'⟩)
        · have : (qhi + 1) * 2 ^ 128 ≤ hi * 2 ^ 128 := Nat.mul_le_mul_right _ (by omega)
          omega
        · rw [add_zero] at h
          subst h
          omega
      rw [if_neg (fun h => hn h.2), if_neg hn]
    · rw [add_zero, sub_zero]; exact bitsOf hlo
    · rw [sub_zero, sub_zero]; exact bitsOf hhi
  · have hhq : 0 < hi := by
      by_contra h
      have : hi = 0 := by omega
      subst this
      have : 1 * 2 ^ 128 ≤ qhi * 2 ^ 128 := Nat.mul_le_mul_right _ (by omega)
      omega
    refine ⟨_, _, _, _, (kWith_iff (A := lo + qlo) (H := hi + qhi) (by omega) (by omega)).mpr
      ⟨?_, ?_, hout⟩⟩
    all_goals
      have hn : kQuot (lo + qlo) (hi + qhi) := Or.inl (by omega)
      rw [if_neg (fun h => absurd h.1 (by omega)), if_pos hn, Nat.cast_add]
    · rw [add_zero, add_sub_cancel_right]; exact bitsOf hlo
    · rw [sub_zero, add_sub_cancel_right]; exact bitsOf hhi

/-- The outputs of `K` are bits. -/
theorem bits_of_k {out : ℕ → Fp} {s : Fp} (h : K s out) : ∃ k < 2 ^ 256, AreBits 256 k out := by
  obtain ⟨slo, shi, kl, kh, inB, carry, ahi, bhi, alo, blo, al, be, ga, bg, iq, th, bo, klo, khi,
    h1, h2, h3, h4, h5, h6, h7, h8, h9, h10, h11, h12, h13, h14, h15, h16, h17, h18⟩ := h
  have bin : ∀ {x : Fp}, x * (x - 1) = 0 → x = 0 ∨ x = 1 := by
    intro x hx
    rcases mul_eq_zero.mp hx with h | h
    · exact .inl h
    · exact .inr (sub_eq_zero.mp h)
  apply exists_areBits
  intro i hi
  by_cases h : i < 128
  · rw [(h18 i h).1]; exact bin (h16.1 i hi)
  · have := (h18 (i - 128) (by omega)).2
    rw [show i - 128 + 128 = i by omega] at this
    rw [this]; exact bin (h17.1 _ (by omega))

/-- The recoded scalar computed by an honest prover. -/
theorem kHonest_iff {s : Fp} {out : ℕ → Fp} :
    KHonest s out ↔ AreBits 256
      (if 2 ^ 128 ≤ s.val + tQlo ∧ s.val < 2 ^ 128 then s.val + tQ - 2 ^ 128
        else (s.val + tQ) % q) out := by
  obtain ⟨c0, c0', c1, c2, c3, c4, c5, c6, c7, c8, c9⟩ := k_consts
  have e129 : (2 : ℕ) ^ 129 = 2 * 2 ^ 128 := by norm_num
  have e256 : (2 : ℕ) ^ 256 = 2 ^ 128 * 2 ^ 128 := by norm_num
  have hs : s.val < secpP := ZMod.val_lt s
  obtain ⟨n, hn⟩ : ∃ n, n = s.val := ⟨_, rfl⟩
  rw [KHonest, ← hn]
  rw [← hn] at hs
  have hlo : n % 2 ^ 128 < 2 ^ 128 := Nat.mod_lt _ (by positivity)
  have hhi : n / 2 ^ 128 < 2 ^ 128 := by
    rw [Nat.div_lt_iff_lt_mul (by positivity), ← e256]; omega
  have hk' := Nat.mod_add_div n (2 ^ 128)
  obtain ⟨lo, hlo'⟩ : ∃ lo, lo = n % 2 ^ 128 := ⟨_, rfl⟩
  obtain ⟨hi, hhi'⟩ : ∃ hi, hi = n / 2 ^ 128 := ⟨_, rfl⟩
  rw [← hlo'] at hlo hk' ⊢
  rw [← hhi'] at hhi hk' ⊢
  have hp128 : 2 ^ 128 < secpP := lt_trans (by norm_num) secpP_big.1
  have ea : ((lo + tQlo : ℕ) : Fp) - tQlo = (lo : ℕ) := by rw [Nat.cast_add]; ring
  have eh : ((hi + tQhi : ℕ) : Fp) - tQhi = (hi : ℕ) := by rw [Nat.cast_add]; ring
  -- the general shape: with the two halves `a` and `c`
  have fin : ∀ (a c : ℕ), a < secpP → c < 2 ^ 128 →
      ((lo + tQlo : ℕ) : Fp) + (if lo + tQlo < qlo ∧ kQuot (lo + tQlo) (hi + tQhi) then 2 ^ 128 else 0) -
        (if kQuot (lo + tQlo) (hi + tQhi) then (qlo : Fp) else 0) = (a : ℕ) →
      ((hi + tQhi : ℕ) : Fp) - (if lo + tQlo < qlo ∧ kQuot (lo + tQlo) (hi + tQhi) then 1 else 0) -
        (if kQuot (lo + tQlo) (hi + tQhi) then (qhi : Fp) else 0) = (c : ℕ) →
      ((∃ kl kh, KWith ((lo : ℕ) : Fp) ((hi : ℕ) : Fp) kl kh out ∧ Canonical 256 secpP kl ∧
        Canonical 256 secpP kh) ↔ AreBits 256 (2 ^ 128 * c + a % 2 ^ 128) out) := by
    intro a c ha hc h1 h2
    have hm : a % 2 ^ 128 < 2 ^ 128 := Nat.mod_lt _ (by positivity)
    have low : ∀ {b : ℕ → Fp}, AreBits 256 a b → AreBits 128 (a % 2 ^ 128) b := by
      intro b hb i hi
      rw [hb i (by omega), Nat.testBit_mod_two_pow, decide_eq_true hi, Bool.true_and]
    constructor
    · rintro ⟨kl, kh, hK, hcl, hch⟩
      rw [← ea, ← eh, kWith_iff (by omega) (by omega), h1, h2] at hK
      obtain ⟨hK1, hK2, hK3⟩ := hK
      exact areBits_split hm hK3 (low ((num2Bits_canonical ha).mp ⟨hK1, hcl⟩))
        (areBits_mono ((num2Bits_canonical (by omega)).mp ⟨hK2, hch⟩) (by norm_num))
    · intro ho
      have b1 := (num2Bits_canonical ha (b := fun i => if a.testBit i then 1 else 0)).mpr
        (fun i _ => rfl)
      have b2 := (num2Bits_canonical (v := c) (by omega)
        (b := fun i => if c.testBit i then 1 else 0)).mpr (fun i _ => rfl)
      refine ⟨fun i => if a.testBit i then 1 else 0, fun i => if c.testBit i then 1 else 0,
        ?_, b1.2, b2.2⟩
      rw [← ea, ← eh, kWith_iff (by omega) (by omega), h1, h2]
      refine ⟨b1.1, b2.1, ?_⟩
      intro i hi'
      constructor
      · rw [ho i (by omega), Nat.testBit_two_pow_mul_add _ hm, if_pos hi', Nat.testBit_mod_two_pow,
          decide_eq_true hi', Bool.true_and]
      · have hni : ¬ i + 128 < 128 := by omega
        rw [ho (i + 128) (by omega), Nat.testBit_two_pow_mul_add _ hm, if_neg hni,
          Nat.add_sub_cancel]
  by_cases hq : kQuot (lo + tQlo) (hi + tQhi)
  · have hge : qhi ≤ hi + tQhi ∧ (lo + tQlo < qlo → qhi < hi + tQhi) := by
      have hcar : (lo + tQlo) / 2 ^ 128 = 0 ∨ (lo + tQlo) / 2 ^ 128 = 1 := by omega
      have hmd := Nat.mod_add_div (lo + tQlo) (2 ^ 128)
      rcases hcar with h | h <;> rw [kQuot, h] at hq <;> rw [h] at hmd
      · constructor
        · omega
        · intro h'; omega
      · omega
    by_cases hl : lo + tQlo < qlo
    · rw [fin (lo + tQlo + 2 ^ 128 - qlo) (hi + tQhi - 1 - qhi) (by omega) (by omega) ?_ ?_,
        if_neg (by omega)]
      · have : (n + tQ) % q = n + tQ - q := by
          rw [Nat.mod_eq_sub_mod (by omega), Nat.mod_eq_of_lt (by omega)]
        rw [this, Nat.mod_eq_of_lt (by omega)]
        have : 2 ^ 128 * (hi + tQhi - 1 - qhi) + (lo + tQlo + 2 ^ 128 - qlo) = n + tQ - q := by omega
        rw [this]
      · rw [if_pos ⟨hl, hq⟩, if_pos hq, Nat.cast_sub (by omega), Nat.cast_add _ (2 ^ 128),
          Nat.cast_pow]; norm_num
      · rw [if_pos ⟨hl, hq⟩, if_pos hq, Nat.cast_sub (by omega), Nat.cast_sub (by omega)]; norm_num
    · rw [fin (lo + tQlo - qlo) (hi + tQhi - qhi) (by omega) (by omega) ?_ ?_, if_neg (by omega)]
      · have : (n + tQ) % q = n + tQ - q := by
          rw [Nat.mod_eq_sub_mod (by omega), Nat.mod_eq_of_lt (by omega)]
        rw [this, Nat.mod_eq_of_lt (by omega)]
        have : 2 ^ 128 * (hi + tQhi - qhi) + (lo + tQlo - qlo) = n + tQ - q := by omega
        rw [this]
      · rw [if_neg (fun h => hl h.1), if_pos hq, Nat.cast_sub (by omega), add_zero]
      · rw [if_neg (fun h => hl h.1), if_pos hq, Nat.cast_sub (by omega), sub_zero]
  · have hle : hi + tQhi + (lo + tQlo) / 2 ^ 128 ≤ qhi ∧
        (hi + tQhi + (lo + tQlo) / 2 ^ 128 = qhi → (lo + tQlo) % 2 ^ 128 < qlo) := by
      rw [kQuot] at hq
      omega
    have hmd := Nat.mod_add_div (lo + tQlo) (2 ^ 128)
    rw [fin (lo + tQlo) (hi + tQhi) (by omega) (by omega) (by rw [if_neg (fun h => hq h.2), if_neg hq]; ring)
      (by rw [if_neg (fun h => hq h.2), if_neg hq]; ring)]
    by_cases hc : lo + tQlo < 2 ^ 128
    · rw [if_neg (by omega), Nat.mod_eq_of_lt hc, Nat.mod_eq_of_lt (by
        rw [Nat.div_eq_of_lt hc, Nat.mod_eq_of_lt hc] at hle
        omega)]
      have : 2 ^ 128 * (hi + tQhi) + (lo + tQlo) = n + tQ := by omega
      rw [this]
    · have hcar : (lo + tQlo) / 2 ^ 128 = 1 := by omega
      rw [hcar] at hle hmd
      have h0 : hi = 0 := by omega
      subst h0
      rw [if_pos (by omega)]
      have : 2 ^ 128 * (0 + tQhi) + (lo + tQlo) % 2 ^ 128 = n + tQ - 2 ^ 128 := by omega
      rw [this]

end Spartan.Circuit
