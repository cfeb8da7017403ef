import Verif.Model.SquareRoot
import Verif.Props.GenWitness
import Mathlib.Tactic.IntervalCases

/-! C141: `square_root` is the integer part of the square root. -/

namespace Spartan

/-- The rounded root is a nearest one: its distance from the root of `x c²` is at most a half. -/
theorem roundedSqrt_nearest (x c : ℕ) :
    (2 * (roundedSqrt x c : ℤ) - 1) * |2 * (roundedSqrt x c : ℤ) - 1| ≤ 4 * (x * (c * c)) ∧
      4 * (x * (c * c)) ≤ (2 * (roundedSqrt x c : ℤ) + 1) ^ 2 := by
  have e : ((x * (c * c) : ℕ) : ℤ) = (x : ℤ) * (c * c) := by push_cast; ring
  rw [← e]
  unfold roundedSqrt
  simp only
  generalize x * (c * c) = X
  have h1 : Nat.sqrt X * Nat.sqrt X ≤ X := Nat.sqrt_le X
  have h2 : X < (Nat.sqrt X + 1) * (Nat.sqrt X + 1) := Nat.lt_succ_sqrt X
  generalize Nat.sqrt X = t at *
  zify at h1 h2
  split
  · rename_i h
    zify at h
    push_cast
    rw [abs_of_nonneg (by omega)]
    constructor <;> nlinarith
  · rename_i h
    zify at h
    rcases Nat.eq_zero_or_pos t with rfl | ht
    · constructor
      · simp; omega
      · push_cast at *; nlinarith
    · rw [abs_of_nonneg (by omega)]
      constructor <;> nlinarith

theorem double_eq {n : ℕ} (h : n ≤ 2 ^ 53) : Wc.roundTo (2 ^ (n.log2 - 52)) n = n := by
  have h1 := Wc.double_small h
  unfold Wc.double at h1
  simp only at h1
  generalize 2 ^ 1024 = H at h1
  split at h1
  · exact Option.some.inj h1
  · exact nomatch h1

/-- The integer part is right when no integer lies between the root and its rounding. -/
theorem rounded_floor {n c : ℕ} (hc : 0 < c) (h : n + (Nat.sqrt n + 1 + (c - 1)) / c < (Nat.sqrt n + 1) * (Nat.sqrt n + 1) + 1) :
    roundedSqrt n c / c = Nat.sqrt n := by
  have h1 : Nat.sqrt n * Nat.sqrt n ≤ n := Nat.sqrt_le n
  have hdiv := Nat.div_add_mod (Nat.sqrt n + 1 + (c - 1)) c
  have hmod := Nat.mod_lt (Nat.sqrt n + 1 + (c - 1)) hc
  generalize (Nat.sqrt n + 1 + (c - 1)) / c = d at *
  generalize (Nat.sqrt n + 1 + (c - 1)) % c = r at *
  generalize Nat.sqrt n = s at *
  have hd : s + 1 ≤ c * d := by omega
  rw [Nat.div_eq_iff hc]
  unfold roundedSqrt
  simp only
  have t1 : Nat.sqrt (n * (c * c)) * Nat.sqrt (n * (c * c)) ≤ n * (c * c) := Nat.sqrt_le _
  have t2 : n * (c * c) < (Nat.sqrt (n * (c * c)) + 1) * (Nat.sqrt (n * (c * c)) + 1) := Nat.lt_succ_sqrt _
  have hs : s * c ≤ Nat.sqrt (n * (c * c)) := by
    rw [Nat.le_sqrt]
    calc s * c * (s * c) = s * s * (c * c) := by ring
      _ ≤ n * (c * c) := Nat.mul_le_mul_right _ h1
  generalize Nat.sqrt (n * (c * c)) = t at *
  have hX : n * (c * c) + (s + 1) * c ≤ (s + 1) * (s + 1) * (c * c) := by
    have a1 : n + d ≤ (s + 1) * (s + 1) := by omega
    calc n * (c * c) + (s + 1) * c ≤ n * (c * c) + c * d * c := by gcongr
      _ = (n + d) * (c * c) := by ring
      _ ≤ _ := Nat.mul_le_mul_right _ a1
  have ht : t < (s + 1) * c := by
    by_contra hn
    have : (s + 1) * c * ((s + 1) * c) ≤ t * t := Nat.mul_le_mul (by omega) (by omega)
    have e : (s + 1) * c * ((s + 1) * c) = (s + 1) * (s + 1) * (c * c) := by ring
    have : 0 < (s + 1) * c := by positivity
    omega
  have e1 : (s + 1) * c = s * c + c := by ring
  split
  · rename_i hlt
    have hne : t + 1 ≠ (s + 1) * c := by
      intro he
      have e : (s + 1) * (s + 1) * (c * c) = (t + 1) * (t + 1) := by rw [he]; ring
      have e' : (t + 1) * (t + 1) = t * t + t + (t + 1) := by ring
      rw [← he, e, e'] at hX
      omega
    omega
  · omega

/-- C141.  Up to `2^52 + 2^27` the result is the integer part of the square root. -/
theorem square_root_floor_partial {n : ℕ} (h : n < 2 ^ 52 + 2 ^ 27) : squareRoot n = Nat.sqrt n := by
  unfold squareRoot
  simp only
  rw [double_eq (by omega)]
  have h1 : Nat.sqrt n * Nat.sqrt n ≤ n := Nat.sqrt_le n
  have h2 : n < (Nat.sqrt n + 1) * (Nat.sqrt n + 1) := Nat.lt_succ_sqrt n
  have hs : Nat.sqrt n ≤ 2 ^ 26 := by
    by_contra hn
    have : (2 ^ 26 + 1) * (2 ^ 26 + 1) ≤ Nat.sqrt n * Nat.sqrt n := Nat.mul_le_mul (by omega) (by omega)
    omega
  have hl : (Nat.sqrt n).log2 ≤ 26 := by
    rcases Nat.eq_zero_or_pos (Nat.sqrt n) with h0 | h0
    · rw [h0]; decide
    · exact Nat.lt_succ_iff.1 ((Nat.log2_lt (by omega)).2 (by omega))
  have hc : 2 ^ 26 ≤ 2 ^ (52 - (Nat.sqrt n).log2) := Nat.pow_le_pow_right (by norm_num) (by omega)
  apply rounded_floor (by omega)
  generalize 2 ^ (52 - (Nat.sqrt n).log2) = c at *
  rcases Nat.lt_or_ge (Nat.sqrt n) (2 ^ 26) with h3 | h3
  · have : (Nat.sqrt n + 1 + (c - 1)) / c ≤ 1 := by
      rw [← Nat.lt_succ_iff, Nat.div_lt_iff_lt_mul (by omega)]; omega
    omega
  · have e : Nat.sqrt n = 2 ^ 26 := le_antisymm hs h3
    have : (Nat.sqrt n + 1 + (c - 1)) / c ≤ 2 := by
      rw [← Nat.lt_succ_iff, Nat.div_lt_iff_lt_mul (by omega)]; omega
    rw [e] at *
    omega

theorem roundTo_bounds {u n : ℕ} (hu : 0 < u) :
    2 * Wc.roundTo u n ≤ 2 * n + u ∧ 2 * n ≤ 2 * Wc.roundTo u n + u ∧ ∀ m, u ∣ m → m ≤ n → m ≤ Wc.roundTo u n := by
  have hd := Nat.div_add_mod n u
  have hm := Nat.mod_lt n hu
  rw [Wc.roundTo]
  have hle : ∀ m, u ∣ m → m ≤ n → m ≤ n / u * u := by
    rintro m ⟨c, rfl⟩ h
    rw [mul_comm u c] at h ⊢
    exact Nat.mul_le_mul_right _ ((Nat.le_div_iff_mul_le hu).2 h)
  have e : u * (n / u) = n / u * u := mul_comm _ _
  have e' : (n / u + 1) * u = n / u * u + u := by ring
  split
  · refine ⟨by omega, by omega, hle⟩
  · refine ⟨by omega, by omega, fun m h1 h2 => ?_⟩
    have := hle m h1 h2
    omega

/-- C141.  On every `usize` the result is the integer part of the square root or one more. -/
theorem square_root_near {n : ℕ} (h : n < 2 ^ 64) : Nat.sqrt n ≤ squareRoot n ∧ squareRoot n ≤ Nat.sqrt n + 1 := by
  unfold squareRoot
  simp only
  have hu : 0 < 2 ^ (n.log2 - 52) := Nat.two_pow_pos _
  obtain ⟨b1, b2, b3⟩ := roundTo_bounds (n := n) hu
  have h1 : Nat.sqrt n * Nat.sqrt n ≤ n := Nat.sqrt_le n
  have h2 : n < (Nat.sqrt n + 1) * (Nat.sqrt n + 1) := Nat.lt_succ_sqrt n
  have hL : n.log2 < 64 := by
    rcases Nat.eq_zero_or_pos n with rfl | h0
    · decide
    · exact (Nat.log2_lt (by omega)).2 h
  have hu11 : 2 ^ (n.log2 - 52) ≤ 2 ^ 11 := Nat.pow_le_pow_right (by norm_num) (by omega)
  have hus : 2 ^ (n.log2 - 52) ≤ 1 ∨ (53 ≤ n.log2 ∧ 2 ^ n.log2 ≤ n) := by
    rcases Nat.lt_or_ge n.log2 53 with hl | hl
    · left; rw [show n.log2 - 52 = 0 by omega]; norm_num
    · refine Or.inr ⟨hl, Nat.log2_self_le (by rintro rfl; exact absurd hl (by decide))⟩
  have hdvd : 53 ≤ n.log2 → 2 ^ (n.log2 - 52) ∣ 2 ^ n.log2 := fun _ => pow_dvd_pow 2 (by omega)
  generalize hx : Wc.roundTo (2 ^ (n.log2 - 52)) n = x at *
  have hxle : x ≤ 2 ^ 65 := by omega
  have hsx : Nat.sqrt x < 2 ^ 33 := by
    rw [Nat.sqrt_lt']; omega
  have hk : (Nat.sqrt x).log2 < 33 := by
    rcases Nat.eq_zero_or_pos (Nat.sqrt x) with h0 | h0
    · rw [h0]; decide
    · exact (Nat.log2_lt (by omega)).2 hsx
  have hc : 2 ≤ 2 ^ (52 - (Nat.sqrt x).log2) :=
    le_trans (by norm_num) (Nat.pow_le_pow_right (by norm_num : 0 < 2) (by omega : 1 ≤ 52 - (Nat.sqrt x).log2))
  have huc : x < Nat.sqrt n * Nat.sqrt n → 2 ^ (n.log2 - 52) * 2 ^ (52 - (Nat.sqrt x).log2) < 2 * Nat.sqrt n := by
    intro hlt
    obtain ⟨hl, hn⟩ := hus.resolve_left (by intro hu1; omega)
    have hx2 : 2 ^ n.log2 ≤ x := b3 _ (hdvd hl) hn
    rw [← pow_add]
    generalize n.log2 = L at *
    obtain ⟨j, hj⟩ : ∃ j, L = 2 * j ∨ L = 2 * j + 1 := ⟨L / 2, by omega⟩
    have hj2 : 2 ^ j * 2 ^ j ≤ x := by
      refine le_trans ?_ hx2
      rw [← pow_add]
      exact Nat.pow_le_pow_right (by norm_num) (by omega)
    have hjs : 2 ^ j < Nat.sqrt n := by
      by_contra hn'
      have : Nat.sqrt n * Nat.sqrt n ≤ 2 ^ j * 2 ^ j := Nat.mul_le_mul (by omega) (by omega)
      omega
    have hjk : j ≤ (Nat.sqrt x).log2 := by
      have : 2 ^ j ≤ Nat.sqrt x := Nat.le_sqrt.2 hj2
      exact (Nat.le_log2 (by have := Nat.two_pow_pos j; omega)).2 this
    have : 2 ^ (L - 52 + (52 - (Nat.sqrt x).log2)) ≤ 2 ^ (j + 1) := Nat.pow_le_pow_right (by norm_num) (by omega)
    rw [pow_succ] at this
    omega
  have husn : 2 ^ (n.log2 - 52) < 2 * (Nat.sqrt n + 2) := by
    rcases hus with h3 | ⟨h3, h4⟩
    · omega
    · have : 2 ^ 26 ≤ Nat.sqrt n := by
        rw [Nat.le_sqrt]
        refine le_trans ?_ h4
        exact le_trans (by norm_num : 2 ^ 26 * 2 ^ 26 ≤ 2 ^ 53) (Nat.pow_le_pow_right (by norm_num) h3)
      omega
  clear hx b3 hdvd hus hu11 hL hk hsx hxle
  generalize 2 ^ (n.log2 - 52) = u at *
  generalize 2 ^ (52 - (Nat.sqrt x).log2) = c at *
  generalize Nat.sqrt n = s at *
  unfold roundedSqrt
  simp only
  have t1 : Nat.sqrt (x * (c * c)) * Nat.sqrt (x * (c * c)) ≤ x * (c * c) := Nat.sqrt_le _
  have t2 : x * (c * c) < (Nat.sqrt (x * (c * c)) + 1) * (Nat.sqrt (x * (c * c)) + 1) := Nat.lt_succ_sqrt _
  have t3 : s * s ≤ x → s * c ≤ Nat.sqrt (x * (c * c)) := by
    intro hh
    rw [Nat.le_sqrt]
    calc s * c * (s * c) = s * s * (c * c) := by ring
      _ ≤ x * (c * c) := Nat.mul_le_mul_right _ hh
  generalize Nat.sqrt (x * (c * c)) = t at *
  constructor
  · rw [Nat.le_div_iff_mul_le (by omega)]
    rcases Nat.lt_or_ge x (s * s) with hlt | hge
    · have hq : u * c + 1 ≤ 2 * s := huc hlt
      have key : (2 * (s * c) - 1 : ℤ) * (2 * (s * c) - 1) + 1 ≤ 4 * (x * (c * c)) := by
        have q1 : (2 * (s * s) : ℤ) ≤ 2 * x + u := by exact_mod_cast (by omega : 2 * (s * s) ≤ 2 * x + u)
        have q2 : (u * c + 1 : ℤ) ≤ 2 * s := by exact_mod_cast hq
        have q3 : (2 : ℤ) ≤ c := by exact_mod_cast hc
        nlinarith [mul_le_mul_of_nonneg_right q1 (by positivity : (0 : ℤ) ≤ 2 * (c * c)),
          mul_le_mul_of_nonneg_right q2 (by positivity : (0 : ℤ) ≤ 2 * c)]
      have t2' : (x * (c * c) : ℤ) < (t + 1) * (t + 1) := by exact_mod_cast t2
      have hst : s * c ≤ t + 1 := by
        by_contra hn
        have : (t + 2 : ℤ) ≤ s * c := by exact_mod_cast (by omega : t + 2 ≤ s * c)
        nlinarith
      split
      · exact hst
      · rename_i hn
        by_contra hn'
        have he : s * c = t + 1 := by omega
        have he' : (s * c : ℤ) = t + 1 := by exact_mod_cast he
        have hn2 : (x * (c * c) : ℤ) ≤ t * t + t := by exact_mod_cast (by omega : x * (c * c) ≤ t * t + t)
        rw [he'] at key
        nlinarith
    · have := t3 hge
      split <;> omega
  · rw [← Nat.lt_succ_iff, Nat.div_lt_iff_lt_mul (by omega)]
    have ht : t + 1 < (s + 1 + 1) * c := by
      by_contra hn
      have q0 : ((s + 2) * c : ℤ) ≤ t + 1 := by exact_mod_cast (by rw [Nat.not_lt] at hn; linarith : (s + 2) * c ≤ t + 1)
      have q1 : (x + 1 : ℤ) ≤ s * s + 3 * s + 2 := by
        have : 2 * x < 2 * (s * s + 2 * s + (s + 2)) := by nlinarith
        exact_mod_cast (by nlinarith : x + 1 ≤ s * s + 3 * s + 2)
      have q2 : (2 : ℤ) ≤ c := by exact_mod_cast hc
      have q3 : (t * t : ℤ) ≤ x * (c * c) := by exact_mod_cast t1
      have q4 : (0 : ℤ) ≤ (s + 2) * c - 1 := by nlinarith
      have q5 : ((s + 2) * c - 1 : ℤ) * ((s + 2) * c - 1) ≤ t * t := mul_le_mul (by linarith) (by linarith) q4 (by positivity)
      have q6 := mul_le_mul_of_nonneg_right q1 (by positivity : (0 : ℤ) ≤ c * c)
      nlinarith [mul_nonneg (by positivity : (0 : ℤ) ≤ (s + 2) * c) (by linarith : (0 : ℤ) ≤ c - 2)]
    rw [← Nat.add_one (s + 1)]
    split <;> omega

/-- C141.  The bound is sharp: at `2^52 + 2^27` the result is one too large; so it is at the largest `usize`. -/
theorem square_root_wrong :
    squareRoot (2 ^ 52 + 2 ^ 27) = Nat.sqrt (2 ^ 52 + 2 ^ 27) + 1 ∧ squareRoot (2 ^ 64 - 1) = Nat.sqrt (2 ^ 64 - 1) + 1 := by
  decide +kernel

theorem roundedSqrt_eq {x c T : ℕ} (h1 : T * T < x * (c * c) + T) (h2 : x * (c * c) ≤ T * T + T) : roundedSqrt x c = T := by
  unfold roundedSqrt
  simp only
  generalize x * (c * c) = N at *
  rcases Nat.lt_or_ge N (T * T) with h | h
  · obtain ⟨T, rfl⟩ : ∃ t, T = t + 1 := ⟨T - 1, by have : T ≠ 0 := (by rintro rfl; omega); omega⟩
    have e : Nat.sqrt N = T := by
      apply le_antisymm
      · exact Nat.lt_succ_iff.1 (Nat.sqrt_lt.2 h)
      · exact Nat.le_sqrt.2 (by nlinarith)
    rw [e, if_pos (by nlinarith)]
  · have e : Nat.sqrt N = T := by
      apply le_antisymm
      · exact Nat.lt_succ_iff.1 (Nat.sqrt_lt.2 (by rw [Nat.succ_eq_add_one]; nlinarith))
      · exact Nat.le_sqrt.2 h
    rw [e, if_neg (by omega)]

/-- C141.  For every square that fits a `usize` the result is exact. -/
theorem square_root_square {s : ℕ} (h : s < 2 ^ 32) : squareRoot (s * s) = s := by
  unfold squareRoot
  simp only
  obtain ⟨b1, b2, b3⟩ := roundTo_bounds (n := s * s) (Nat.two_pow_pos ((s * s).log2 - 52))
  have hn : s * s < 2 ^ 64 := by nlinarith
  rcases Nat.lt_or_ge (s * s) (2 ^ 53) with hs | hs
  · rw [double_eq (le_of_lt hs), Nat.sqrt_eq]
    generalize hc : 2 ^ (52 - s.log2) = c
    have hp : 0 < c := by rw [← hc]; exact Nat.two_pow_pos _
    rcases Nat.eq_zero_or_pos s with rfl | h0
    · simp [roundedSqrt]
    · rw [roundedSqrt_eq (T := s * c) (by nlinarith [Nat.mul_pos h0 hp]) (by nlinarith), Nat.mul_div_cancel _ hp]
  · have h0 : s * s ≠ 0 := by omega
    have hl : (s * s).log2 < 64 := (Nat.log2_lt h0).2 hn
    have hl' : 53 ≤ (s * s).log2 := (Nat.le_log2 h0).2 hs
    have hu1 : 2 ^ ((s * s).log2 - 52) * 2 ^ 52 ≤ s * s := by
      rw [← pow_add, Nat.sub_add_cancel (by omega)]
      exact Nat.log2_self_le h0
    have hu2 : ∀ k, 25 ≤ k → 2 ^ ((s * s).log2 - 52) ∣ 2 ^ (k + 1) * 2 ^ (k + 1) := fun k hk => by
      rw [← pow_add]; exact pow_dvd_pow 2 (by omega)
    generalize Wc.roundTo (2 ^ ((s * s).log2 - 52)) (s * s) = x at *
    generalize 2 ^ ((s * s).log2 - 52) = u at *
    have hx : 2 ^ 52 ≤ x := by omega
    have hx' : x < 2 ^ 66 := by omega
    have hr0 : 2 ^ 26 ≤ Nat.sqrt x := Nat.le_sqrt.2 (by omega)
    have hr1 : Nat.sqrt x < 2 ^ 33 := Nat.sqrt_lt.2 (by omega)
    have hk1 : 26 ≤ (Nat.sqrt x).log2 := (Nat.le_log2 (by omega)).2 hr0
    have hk2 : (Nat.sqrt x).log2 < 33 := (Nat.log2_lt (by omega)).2 hr1
    have hk3 : Nat.sqrt x < 2 ^ ((Nat.sqrt x).log2 + 1) := Nat.lt_log2_self
    generalize (Nat.sqrt x).log2 = k at *
    have hsk : s < 2 ^ (k + 1) := by
      by_contra hge
      have h4 := b3 _ (hu2 k (by omega)) (Nat.mul_le_mul (not_lt.1 hge) (not_lt.1 hge))
      have := Nat.sqrt_lt.1 hk3
      omega
    have hc2 : 2 ^ (52 - k) * 2 ^ (k + 1) = 2 ^ 53 := by rw [← pow_add]; congr 1; omega
    have hp : 0 < 2 ^ (52 - k) := Nat.two_pow_pos _
    generalize 2 ^ (52 - k) = c at *
    have hs0 : 0 < s := Nat.pos_of_ne_zero (by rintro rfl; simp at h0)
    have hsc : s * c < 2 ^ 53 := by rw [← hc2, mul_comm]; exact Nat.mul_lt_mul_of_pos_left hsk hp
    have huc : u * c < 2 * s := by
      have : (u * c) * 2 ^ 52 < (2 * s) * 2 ^ 52 := by
        calc (u * c) * 2 ^ 52 = (u * 2 ^ 52) * c := by ring
          _ ≤ (s * s) * c := Nat.mul_le_mul_right _ hu1
          _ = s * (s * c) := by ring
          _ < s * 2 ^ 53 := Nat.mul_lt_mul_of_pos_left hsc hs0
          _ = (2 * s) * 2 ^ 52 := by ring
      exact Nat.lt_of_mul_lt_mul_right this
    have huc' : u * (c * c) < 2 * (s * c) := by
      calc u * (c * c) = (u * c) * c := by ring
        _ < (2 * s) * c := Nat.mul_lt_mul_of_pos_right huc hp
        _ = _ := by ring
    have e1 := Nat.mul_le_mul_right (c * c) b1
    have e2 := Nat.mul_le_mul_right (c * c) b2
    have e3 : (2 * (s * s) + u) * (c * c) = 2 * (s * c * (s * c)) + u * (c * c) := by ring
    have e4 : (2 * x + u) * (c * c) = 2 * (x * (c * c)) + u * (c * c) := by ring
    have e5 : 2 * x * (c * c) = 2 * (x * (c * c)) := by ring
    have e6 : 2 * (s * s) * (c * c) = 2 * (s * c * (s * c)) := by ring
    rw [e3, e5] at e1
    rw [e4, e6] at e2
    rw [roundedSqrt_eq (T := s * c) (by omega) (by omega), Nat.mul_div_cancel _ hp]
/-- C141.  In particular it is exact for the powers of four, the sizes for which the crate calls it. -/
theorem square_root_pow4 {a : ℕ} (h : a < 32) : squareRoot (4 ^ a) = 2 ^ a := by
  have := square_root_square (s := 2 ^ a) (Nat.pow_lt_pow_right (by norm_num) h)
  rwa [← mul_pow] at this

/-- The largest square, which is no multiple of a power of two and has more than 53 bits. -/
example : squareRoot (4294967295 * 4294967295) = 4294967295 := square_root_square (by norm_num)

example : squareRoot 4503599761588223 = 67108864 :=
  (square_root_floor_partial (by norm_num)).trans (by decide +kernel)

end Spartan
