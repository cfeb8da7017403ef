import Mathlib.Data.ZMod.Basic
import Mathlib.FieldTheory.Finite.Basic
import Mathlib.GroupTheory.OrderOfElement
import Mathlib.Tactic.NormNum.Prime
import Mathlib.Tactic.NormNum.GCD
import Verif.Spec.Primes

/-!
Primality of the two field moduli, by Pocklington's criterion with one large
prime factor of `N - 1` at each step.  The modular exponentiations are evaluated
by the kernel.
-/

namespace Spartan

/-- `a ^ e mod n` for the exponent given by its `k` low bits, most significant first. -/
def powModAux (n a e : Nat) : Nat → Nat → Nat
  | 0, acc => acc
  | k + 1, acc =>
    powModAux n a e k (if e / 2 ^ k % 2 = 1 then acc * acc % n * a % n else acc * acc % n)

def powMod (n a e k : Nat) : Nat := powModAux n a e k (1 % n)

theorem powModAux_eq (n a e : Nat) : ∀ k acc, powModAux n a e k acc % n
    = acc ^ 2 ^ k * a ^ (e % 2 ^ k) % n
  | 0, acc => by simp [powModAux, Nat.mod_one]
  | k + 1, acc => by
    have hb : e % 2 ^ (k + 1) = e % 2 ^ k + 2 ^ k * (e / 2 ^ k % 2) := by
      rw [pow_succ, Nat.mod_mul]
    rw [powModAux, powModAux_eq n a e k]
    rcases Nat.mod_two_eq_zero_or_one (e / 2 ^ k) with h | h
    · rw [if_neg (by omega), hb, h]
      simp only [mul_zero, add_zero]
      rw [Nat.mul_mod, Nat.pow_mod, Nat.mod_mod, ← Nat.pow_mod, ← Nat.mul_mod]
      congr 2
      rw [← pow_two, ← pow_mul, pow_succ, mul_comm 2]
    · rw [if_pos h, hb, h]
      have h1 : (acc * acc % n * a % n) ^ 2 ^ k % n = (acc * acc * a) ^ 2 ^ k % n := by
        rw [Nat.pow_mod, Nat.mod_mod, ← Nat.pow_mod, Nat.pow_mod, Nat.mod_mul_mod, ← Nat.pow_mod]
      rw [Nat.mul_mod, h1, ← Nat.mul_mod]
      congr 1
      rw [mul_pow, pow_add, mul_one, ← pow_two acc, ← pow_mul, pow_succ, mul_comm 2]
      ring

theorem powMod_eq {n a e k : Nat} (hk : e < 2 ^ k) : powMod n a e k % n = a ^ e % n := by
  rw [powMod, powModAux_eq, Nat.mod_eq_of_lt hk, Nat.mul_mod, Nat.pow_mod, Nat.mod_mod,
    ← Nat.pow_mod, one_pow, ← Nat.mul_mod, one_mul]

/-- One step of Pocklington's criterion: a prime factor `F` of `N - 1` with a suitable witness
divides `s - 1` for every prime factor `s` of `N`. -/
theorem pocklington_key {N s F a : Nat} (hN : 1 < N) (hmf : s.Prime) (hmd : s ∣ N)
    (hF : F.Prime) (hdvd : F ∣ N - 1) (h1 : a ^ (N - 1) % N = 1)
    (h2 : Nat.Coprime (a ^ ((N - 1) / F) % N + (N - 1)) N) : F ∣ s - 1 := by
  haveI : Fact s.Prime := ⟨hmf⟩
  have hmod : ∀ e : Nat, ((a ^ e % N : ℕ) : ZMod s) = (a : ZMod s) ^ e := by
    intro e
    rw [← Nat.cast_pow, ZMod.natCast_eq_natCast_iff]
    exact (Nat.mod_modEq _ _).of_dvd hmd
  have e1 : (a : ZMod s) ^ (N - 1) = 1 := by rw [← hmod, h1, Nat.cast_one]
  have e2 : (a : ZMod s) ^ ((N - 1) / F) ≠ 1 := by
    intro h
    have h4 : (((a ^ ((N - 1) / F) % N + (N - 1)) : ℕ) : ZMod s) = 0 := by
      have h5 : (((N - 1 + 1 : ℕ)) : ZMod s) = 0 := by
        rw [Nat.sub_add_cancel (by omega)]
        exact (ZMod.natCast_eq_zero_iff _ _).mpr hmd
      rw [Nat.cast_add, hmod, h, add_comm]
      simpa using h5
    have h6 : s ∣ a ^ ((N - 1) / F) % N + (N - 1) := (ZMod.natCast_eq_zero_iff _ _).mp h4
    have h7 := Nat.dvd_gcd h6 hmd
    rw [h2] at h7
    exact hmf.one_lt.ne' (Nat.dvd_one.mp h7)
  have hord : orderOf (a : ZMod s) ∣ N - 1 := orderOf_dvd_of_pow_eq_one e1
  have hFord : F ∣ orderOf (a : ZMod s) := by
    by_contra hF'
    apply e2
    apply orderOf_dvd_iff_pow_eq_one.mp
    obtain ⟨m, hm⟩ := hdvd
    rw [hm, Nat.mul_div_cancel_left _ hF.pos]
    rw [hm] at hord
    exact (Nat.Coprime.symm
      ((Nat.Prime.coprime_iff_not_dvd hF).mpr hF')).dvd_of_dvd_mul_left hord
  have ha0 : (a : ZMod s) ≠ 0 := by
    intro h
    rw [h, zero_pow (by omega)] at e1
    exact zero_ne_one e1
  exact hFord.trans (orderOf_dvd_of_pow_eq_one (ZMod.pow_card_sub_one_eq_one ha0))

theorem prod_dvd_of_primes {m : Nat} : ∀ l : List Nat, l.Nodup → (∀ x ∈ l, x.Prime) →
    (∀ x ∈ l, x ∣ m) → l.prod ∣ m
  | [], _, _, _ => by simp
  | x :: l, hn, hp, hd => by
    rw [List.prod_cons]
    rw [List.nodup_cons] at hn
    refine Nat.Coprime.mul_dvd_of_dvd_of_dvd ?_ (hd x (by simp))
      (prod_dvd_of_primes l hn.2 (fun y hy => hp y (by simp [hy])) fun y hy => hd y (by simp [hy]))
    rw [Nat.Prime.coprime_iff_not_dvd (hp x (by simp))]
    intro h
    obtain ⟨y, hy, hxy⟩ := (Prime.dvd_prod_iff (hp x (by simp)).prime).mp h
    have := (Nat.prime_dvd_prime_iff_eq (hp x (by simp)) (hp y (by simp [hy]))).mp hxy
    exact hn.1 (this ▸ hy)

/-- Pocklington's criterion in the form the kernel evaluates: `l` lists distinct prime factors of
`N - 1` whose product exceeds `√N`, all with the same witness `a`. -/
theorem pocklington {N : Nat} (a k : Nat) (l : List Nat) (hl : ∀ x ∈ l, x.Prime)
    (h : (1 < N ∧ l.Nodup ∧ N < l.prod * l.prod ∧ N < 2 ^ k ∧ powMod N a (N - 1) k % N = 1 ∧
      ∀ F ∈ l, (N - 1) % F = 0 ∧
        Nat.gcd (powMod N a ((N - 1) / F) k % N + (N - 1)) N = 1)) : N.Prime := by
  obtain ⟨hN, hnd, hbig, hk, h1, h2⟩ := h
  by_contra hnp
  have hmf : N.minFac.Prime := Nat.minFac_prime (by omega)
  have hsq : N.minFac ^ 2 ≤ N := Nat.minFac_sq_le_self (by omega) hnp
  have hd : l.prod ∣ N.minFac - 1 := by
    refine prod_dvd_of_primes l hnd hl fun F hF => ?_
    refine pocklington_key (a := a) hN hmf (Nat.minFac_dvd N) (hl F hF)
      (Nat.dvd_of_mod_eq_zero (h2 F hF).1) ?_ ?_
    · rwa [← powMod_eq (k := k) (by omega)]
    · rw [Nat.Coprime, ← powMod_eq (k := k)]
      · exact (h2 F hF).2
      · exact lt_of_le_of_lt (Nat.div_le_self _ _) (by omega)
  have h3 := Nat.le_of_dvd (by have := hmf.two_le; omega) hd
  have : l.prod < N.minFac := by have := hmf.two_le; omega
  have := Nat.mul_lt_mul'' this this
  rw [pow_two] at hsq
  omega

theorem prime_n39 : Nat.Prime 297159362677 := by
  refine pocklington 2 39 [1627771] ?_ (by decide +kernel)
  simp only [List.mem_cons, List.not_mem_nil, or_false, forall_eq]
  norm_num

theorem prime_n30 : Nat.Prime 545358713 := by
  refine pocklington 3 30 [28181] ?_ (by decide +kernel)
  simp only [List.mem_cons, List.not_mem_nil, or_false, forall_eq]
  norm_num

theorem prime_p27 : Nat.Prime 107590001 := by
  refine pocklington 3 27 [5, 53, 29, 7] ?_ (by decide +kernel)
  intro x hx
  simp only [List.mem_cons, List.not_mem_nil, or_false] at hx
  rcases hx with rfl | rfl | rfl | rfl <;> norm_num

theorem prime_p128 : Nat.Prime 255515944373312847190720520512484175977 := by
  refine pocklington 2 128 [107590001, 7240687, 96557] ?_ (by decide +kernel)
  intro x hx
  simp only [List.mem_cons, List.not_mem_nil, or_false] at hx
  rcases hx with rfl | rfl | rfl
  · exact prime_p27
  · norm_num
  · norm_num

theorem prime_p237 :
    Nat.Prime 205115282021455665897114700593932402728804164701536103180137503955397371 := by
  refine pocklington 2 238 [255515944373312847190720520512484175977] ?_ (by decide +kernel)
  simpa using prime_p128

theorem prime_n95 : Nat.Prime 29047611873442575647497758179 := by
  refine pocklington 2 95 [297159362677, 545358713] ?_ (by decide +kernel)
  intro x hx
  simp only [List.mem_cons, List.not_mem_nil, or_false] at hx
  rcases hx with rfl | rfl
  · exact prime_n39
  · exact prime_n30

theorem prime_n109 : Nat.Prime 341948486974166000522343609283189 := by
  refine pocklington 2 109 [29047611873442575647497758179] ?_ (by decide +kernel)
  simpa using prime_n95

theorem prime_n68 : Nat.Prime 174723607534414371449 := by
  refine pocklington 2 68 [44706919, 120233] ?_ (by decide +kernel)
  intro x hx
  simp only [List.mem_cons, List.not_mem_nil, or_false] at hx
  rcases hx with rfl | rfl <;> norm_num

/-- The Spartan scalar field modulus is prime. -/
theorem secpP_prime : Nat.Prime secpP := by
  refine pocklington 2 256
    [205115282021455665897114700593932402728804164701536103180137503955397371] ?_
    (by decide +kernel)
  simpa using prime_p237

/-- The secq256k1 base field modulus is prime. -/
theorem secpN_prime : Nat.Prime secpN := by
  refine pocklington 2 256 [341948486974166000522343609283189, 174723607534414371449] ?_
    (by decide +kernel)
  intro x hx
  simp only [List.mem_cons, List.not_mem_nil, or_false] at hx
  rcases hx with rfl | rfl
  · exact prime_n109
  · exact prime_n68

instance : Fact secpP.Prime := ⟨secpP_prime⟩
instance : Fact secpN.Prime := ⟨secpN_prime⟩

end Spartan
