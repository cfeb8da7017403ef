import Verif.Lemmas.Curve
import Verif.Lemmas.H2CConsts
import Mathlib.Algebra.Module.ZMod

/-!
The orders of secp256k1 and secq256k1.
-/

set_option exponentiation.threshold 2000

namespace Spartan
namespace Koblitz

open WeierstrassCurve.Affine

/-- Subtraction of residues on natural numbers. -/
def sbm (m a b : Nat) : Nat := (a + (m - b % m)) % m

/-- Jacobian doubling on natural numbers modulo `m`. -/
def dblN (m : Nat) (s : Nat × Nat × Nat) : Nat × Nat × Nat :=
  let A := s.1 * s.1 % m
  let B := s.2.1 * s.2.1 % m
  let M := 3 * A % m
  let S := 4 * s.1 * B % m
  let X := sbm m (M * M) (2 * S)
  (X, sbm m (M * sbm m S X) (8 * B * B), 2 * s.2.1 * s.2.2 % m)

/-- Jacobian addition of an affine point on natural numbers modulo `m`. -/
def addN (m gx gy : Nat) (s : Nat × Nat × Nat) : Nat × Nat × Nat :=
  let Z2 := s.2.2 * s.2.2 % m
  let H := sbm m (gx * Z2) s.1
  let R := sbm m (gy * (Z2 * s.2.2 % m)) s.2.1
  let H2 := H * H % m
  let H3 := H2 * H % m
  let V := s.1 * H2 % m
  let X := sbm m (R * R) (H3 + 2 * V)
  (X, sbm m (R * sbm m V X) (s.2.1 * H3), s.2.2 * H % m)

def ladderStep (m gx gy : Nat) (s : Nat × Nat × Nat) (b : Bool) : Nat × Nat × Nat :=
  if b then addN m gx gy (dblN m s) else dblN m s

variable {m : Nat} [Fact m.Prime]

theorem sbm_cast (a b : Nat) : ((sbm m a b : ℕ) : ZMod m) = a - b := by
  have hm : 0 < m := (Fact.out : m.Prime).pos
  rw [sbm, ZMod.natCast_mod, Nat.cast_add, Nat.cast_sub (Nat.mod_lt _ hm).le, ZMod.natCast_self,
    ZMod.natCast_mod]
  ring

/-- The state, cast to the field, is a triple of Jacobian coordinates of `P`. -/
def SRep (s : Nat × Nat × Nat) (P : (koblitz (ZMod m)).Point) : Prop :=
  JRep (s.1 : ZMod m) (s.2.1 : ZMod m) (s.2.2 : ZMod m) P

theorem dblN_cast (s : Nat × Nat × Nat) :
    ((dblN m s).1 : ZMod m) = dblX (s.1 : ZMod m) s.2.1 ∧
    ((dblN m s).2.1 : ZMod m) = dblY (s.1 : ZMod m) s.2.1 ∧
    ((dblN m s).2.2 : ZMod m) = dblZ (s.2.1 : ZMod m) s.2.2 := by
  simp only [dblN, sbm_cast, ZMod.natCast_mod, Nat.cast_mul, Nat.cast_ofNat, dblX, dblY, dblZ]
  refine ⟨by ring, by ring, trivial⟩

theorem addN_cast (gx gy : Nat) (s : Nat × Nat × Nat) :
    ((addN m gx gy s).1 : ZMod m) = addX' (s.1 : ZMod m) s.2.1 s.2.2 gx gy ∧
    ((addN m gx gy s).2.1 : ZMod m) = addY' (s.1 : ZMod m) s.2.1 s.2.2 gx gy ∧
    ((addN m gx gy s).2.2 : ZMod m) = addZ' (s.1 : ZMod m) s.2.2 gx := by
  simp only [addN, sbm_cast, ZMod.natCast_mod, Nat.cast_mul, Nat.cast_add, Nat.cast_ofNat, addX',
    addY', addZ']
  refine ⟨by ring, by ring, by ring⟩

theorem step_zero (gx gy : Nat) (s : Nat × Nat × Nat) (b : Bool) (h : (s.2.2 : ZMod m) = 0) :
    ((ladderStep m gx gy s b).2.2 : ZMod m) = 0 := by
  have hd : ((dblN m s).2.2 : ZMod m) = 0 := by rw [(dblN_cast s).2.2, dblZ, h, mul_zero]
  cases b
  · simpa [ladderStep] using hd
  · simp only [ladderStep, if_true]
    rw [(addN_cast gx gy _).2.2, addZ', hd, zero_mul]

theorem fold_zero (gx gy : Nat) : ∀ (bits : List Bool) (s : Nat × Nat × Nat),
    (s.2.2 : ZMod m) = 0 → ((bits.foldl (ladderStep m gx gy) s).2.2 : ZMod m) = 0
  | [], _, h => h
  | b :: bits, s, h => fold_zero gx gy bits _ (step_zero gx gy s b h)

theorem step_rep {gx gy : Nat} (hg : (koblitz (ZMod m)).Nonsingular gx gy) {s : Nat × Nat × Nat}
    {b : Bool} {k : Nat} (h : SRep s (k • Point.some _ _ hg))
    (hz : ((ladderStep m gx gy s b).2.2 : ZMod m) ≠ 0) :
    SRep (ladderStep m gx gy s b) ((2 * k + b.toNat) • Point.some _ _ hg) := by
  obtain ⟨d1, d2, d3⟩ := dblN_cast (m := m) s
  have hdz : ((dblN m s).2.2 : ZMod m) ≠ 0 := by
    intro hc
    apply hz
    cases b
    · simpa [ladderStep] using hc
    · simp only [ladderStep, if_true]
      rw [(addN_cast gx gy _).2.2, addZ', hc, zero_mul]
  have hd : SRep (dblN m s) ((2 * k) • Point.some _ _ hg) := by
    rw [SRep, d1, d2, d3, two_mul, add_nsmul]
    exact JRep.double h (by rw [← d3]; exact hdz)
  cases b
  · simpa [ladderStep] using hd
  · obtain ⟨a1, a2, a3⟩ := addN_cast (m := m) gx gy (dblN m s)
    simp only [ladderStep, if_true] at hz ⊢
    rw [Bool.toNat_true, add_nsmul, one_nsmul, SRep, a1, a2, a3]
    exact JRep.add hd hg (by rw [← a3]; exact hz)

theorem fold_rep {gx gy : Nat} (hg : (koblitz (ZMod m)).Nonsingular gx gy) :
    ∀ (bits : List Bool) (s : Nat × Nat × Nat) (k : Nat), SRep s (k • Point.some _ _ hg) →
    ((bits.foldl (ladderStep m gx gy) s).2.2 : ZMod m) ≠ 0 →
    SRep (bits.foldl (ladderStep m gx gy) s)
      ((bits.foldl (fun k b => 2 * k + b.toNat) k) • Point.some _ _ hg)
  | [], s, k, h, _ => h
  | b :: bits, s, k, h, hz => by
    refine fold_rep hg bits _ _ (step_rep hg h ?_) hz
    intro hc
    exact hz (fold_zero gx gy bits _ hc)

/-- A certificate that `n • G = 0`: the ladder for `n - 1` ends at `-G`. -/
theorem nsmul_eq_zero {gx gy n : Nat} (hg : (koblitz (ZMod m)).Nonsingular gx gy)
    (bits : List Bool) (hb : bits.foldl (fun k b => 2 * k + b.toNat) 1 + 1 = n)
    (hz : (bits.foldl (ladderStep m gx gy) (gx, gy, 1)).2.2 % m ≠ 0)
    (hx : (bits.foldl (ladderStep m gx gy) (gx, gy, 1)).1 % m
      = gx * (bits.foldl (ladderStep m gx gy) (gx, gy, 1)).2.2 ^ 2 % m)
    (hy : ((bits.foldl (ladderStep m gx gy) (gx, gy, 1)).2.1
      + gy * (bits.foldl (ladderStep m gx gy) (gx, gy, 1)).2.2 ^ 3) % m = 0) :
    n • Point.some _ _ hg = 0 := by
  generalize hs : bits.foldl (ladderStep m gx gy) (gx, gy, 1) = s at hz hx hy
  have hz' : (s.2.2 : ZMod m) ≠ 0 := by
    rw [Ne, ZMod.natCast_eq_zero_iff]
    exact fun h => hz (Nat.mod_eq_zero_of_dvd h)
  have h1 : SRep (m := m) (gx, gy, 1) (1 • Point.some _ _ hg) := by
    refine ⟨_, _, hg, one_nsmul _, ?_, ?_, ?_⟩ <;> simp
  have h2 := fold_rep hg bits _ 1 h1 (by rw [hs]; exact hz')
  rw [hs] at h2
  obtain ⟨x, y, hxy, e, ex, ey, -⟩ := h2
  have hx' : (s.1 : ZMod m) = gx * s.2.2 ^ 2 := by
    have := MParams.cast_eq_of_mod hx
    rwa [Nat.cast_mul, Nat.cast_pow] at this
  have hy' : (s.2.1 : ZMod m) = -gy * s.2.2 ^ 3 := by
    have : ((s.2.1 + gy * s.2.2 ^ 3 : ℕ) : ZMod m) = 0 := by
      rw [ZMod.natCast_eq_zero_iff]; exact Nat.dvd_of_mod_eq_zero hy
    rw [Nat.cast_add, Nat.cast_mul, Nat.cast_pow] at this
    linear_combination this
  have e1 : x = gx := mul_right_cancel₀ (pow_ne_zero 2 hz') (ex.symm.trans hx')
  have e2 : y = -gy := mul_right_cancel₀ (pow_ne_zero 3 hz') (ey.symm.trans hy')
  subst e1 e2
  have hneg : Point.some _ _ hxy = -Point.some _ _ hg := by
    rw [Point.neg_some]
    congr 1
    rw [negY]
  rw [← hb, add_nsmul, one_nsmul, e, hneg, neg_add_cancel]

/-- The generator of secp256k1. -/
def secpGx : Nat := 55066263022277343669578718895168534326250603453777594175500187360389116729240
def secpGy : Nat := 32670510020758816978083085130507043184471273380659243275938904335757337482424

/-- The generator of secq256k1 (`lib.rs` l. 49–65). -/
def secqGx : Nat := 53718550993811904772965658690407829053653678808745171666022356150019200052646
def secqGy : Nat := 28941648020349172432234515805717979317553499307621291159490218670604692907903

def bitsSecp : List Bool :=
  [true, true, true, true, true, true, true, true, true, true, true, true, true, true, true, true,
  true, true, true, true, true, true, true, true, true, true, true, true, true, true, true, true,
  true, true, true, true, true, true, true, true, true, true, true, true, true, true, true, true,
  true, true, true, true, true, true, true, true, true, true, true, true, true, true, true, true,
  true, true, true, true, true, true, true, true, true, true, true, true, true, true, true, true,
  true, true, true, true, true, true, true, true, true, true, true, true, true, true, true, true,
  true, true, true, true, true, true, true, true, true, true, true, true, true, true, true, true,
  true, true, true, true, true, true, true, true, true, true, true, true, true, true, false, true,
  false, true, true, true, false, true, false, true, false, true, false, true, true, true, false,
  true, true, false, true, true, true, false, false, true, true, true, false, false, true, true,
  false, true, false, true, false, true, true, true, true, false, true, false, false, true, false,
  false, false, true, false, true, false, false, false, false, false, false, false, true, true,
  true, false, true, true, true, false, true, true, true, true, true, true, true, true, false,
  true, false, false, true, false, false, true, false, true, true, true, true, false, true, false,
  false, false, true, true, false, false, true, true, false, true, false, false, false, false,
  false, false, true, true, false, true, true, false, false, true, false, false, false, false,
  false, true, false, true, false, false, false, false, false, false]

def bitsSecq : List Bool :=
  [true, true, true, true, true, true, true, true, true, true, true, true, true, true, true, true,
  true, true, true, true, true, true, true, true, true, true, true, true, true, true, true, true,
  true, true, true, true, true, true, true, true, true, true, true, true, true, true, true, true,
  true, true, true, true, true, true, true, true, true, true, true, true, true, true, true, true,
  true, true, true, true, true, true, true, true, true, true, true, true, true, true, true, true,
  true, true, true, true, true, true, true, true, true, true, true, true, true, true, true, true,
  true, true, true, true, true, true, true, true, true, true, true, true, true, true, true, true,
  true, true, true, true, true, true, true, true, true, true, true, true, true, true, true, true,
  true, true, true, true, true, true, true, true, true, true, true, true, true, true, true, true,
  true, true, true, true, true, true, true, true, true, true, true, true, true, true, true, true,
  true, true, true, true, true, true, true, true, true, true, true, true, true, true, true, true,
  true, true, true, true, true, true, true, true, true, true, true, true, true, true, true, true,
  true, true, true, true, true, true, true, true, true, true, true, true, true, true, true, true,
  true, true, true, true, true, true, true, true, true, true, true, true, true, true, false, true,
  true, true, true, true, true, true, true, true, true, true, true, true, true, true, true, true,
  true, true, true, true, true, false, false, false, false, true, false, true, true, true, false]

theorem small_ne (m : Nat) {n : Nat} (h0 : 0 < n) (hn : n < m) : ((n : ℕ) : ZMod m) ≠ 0 := by
  rw [Ne, ZMod.natCast_eq_zero_iff]
  exact fun h => absurd (Nat.le_of_dvd h0 h) (by omega)

theorem secp_consts : (2 : ZMod secpP) ≠ 0 ∧ (3 : ZMod secpP) ≠ 0 ∧ (7 : ZMod secpP) ≠ 0 := by
  refine ⟨?_, ?_, ?_⟩
  · exact_mod_cast small_ne secpP (n := 2) (by norm_num) (by decide +kernel)
  · exact_mod_cast small_ne secpP (n := 3) (by norm_num) (by decide +kernel)
  · exact_mod_cast small_ne secpP (n := 7) (by norm_num) (by decide +kernel)

theorem secq_consts : (2 : ZMod secpN) ≠ 0 ∧ (3 : ZMod secpN) ≠ 0 ∧ (7 : ZMod secpN) ≠ 0 := by
  refine ⟨?_, ?_, ?_⟩
  · exact_mod_cast small_ne secpN (n := 2) (by norm_num) (by decide +kernel)
  · exact_mod_cast small_ne secpN (n := 3) (by norm_num) (by decide +kernel)
  · exact_mod_cast small_ne secpN (n := 7) (by norm_num) (by decide +kernel)

theorem secp_nonsingular {x y : ZMod secpP} :
    (koblitz (ZMod secpP)).Nonsingular x y ↔ y ^ 2 = x ^ 3 + 7 :=
  nonsingular_iff secp_consts.1 secp_consts.2.1 secp_consts.2.2

theorem secq_nonsingular {x y : ZMod secpN} :
    (koblitz (ZMod secpN)).Nonsingular x y ↔ y ^ 2 = x ^ 3 + 7 :=
  nonsingular_iff secq_consts.1 secq_consts.2.1 secq_consts.2.2

theorem secpG_on : (koblitz (ZMod secpP)).Nonsingular (secpGx : ZMod secpP) (secpGy : ZMod secpP) := by
  rw [secp_nonsingular]
  have : ((secpGy ^ 2 : ℕ) : ZMod secpP) = ((secpGx ^ 3 + 7 : ℕ) : ZMod secpP) :=
    MParams.cast_eq_of_mod (by decide +kernel)
  exact_mod_cast this

theorem secqG_on : (koblitz (ZMod secpN)).Nonsingular (secqGx : ZMod secpN) (secqGy : ZMod secpN) := by
  rw [secq_nonsingular]
  have : ((secqGy ^ 2 : ℕ) : ZMod secpN) = ((secqGx ^ 3 + 7 : ℕ) : ZMod secpN) :=
    MParams.cast_eq_of_mod (by decide +kernel)
  exact_mod_cast this

theorem secpG_order : secpN • (Point.some _ _ secpG_on : Secp) = 0 :=
  nsmul_eq_zero secpG_on bitsSecp (by decide +kernel) (by decide +kernel) (by decide +kernel)
    (by decide +kernel)

theorem secqG_order : secpP • (Point.some _ _ secqG_on : Secq) = 0 :=
  nsmul_eq_zero secqG_on bitsSecq (by decide +kernel) (by decide +kernel) (by decide +kernel)
    (by decide +kernel)

/-- `-7` is not a cube modulo `p`. -/
theorem neg_seven_noncube (x : ZMod secpP) : x ^ 3 ≠ -7 := by
  intro h
  have h0 : x ≠ 0 := by
    rintro rfl
    apply secp_consts.2.2
    linear_combination h
  have h1 : x ^ (secpP - 1) = 1 := ZMod.pow_card_sub_one_eq_one h0
  rw [show secpP - 1 = 3 * ((secpP - 1) / 3) by decide +kernel, pow_mul, h] at h1
  have h7 : (-7 : ZMod secpP) = ((secpP - 7 : ℕ) : ZMod secpP) := by
    rw [eq_comm, ← sub_eq_zero, sub_neg_eq_add]
    have h : ((secpP - 7 + 7 : ℕ) : ZMod secpP) = 0 := by
      rw [show secpP - 7 + 7 = secpP by decide +kernel]; exact ZMod.natCast_self _
    rw [Nat.cast_add] at h
    exact_mod_cast h
  rw [h7] at h1
  have h2 : (((secpP - 7) ^ ((secpP - 1) / 3) : ℕ) : ZMod secpP) = ((1 : ℕ) : ZMod secpP) := by
    rw [Nat.cast_pow, h1, Nat.cast_one]
  have h3 := (ZMod.natCast_eq_natCast_iff' _ _ _).mp h2
  rw [← powMod_eq (k := 256) (by decide +kernel)] at h3
  revert h3
  decide +kernel

theorem card_secq : Nat.card Secq = secpP := by
  haveI : Fact (Nat.Prime secpP) := ⟨secpP_prime⟩
  have hG : addOrderOf (Point.some _ _ secqG_on : Secq) = secpP :=
    addOrderOf_eq_prime secqG_order (Point.some_ne_zero _)
  have hd : secpP ∣ Nat.card Secq := by rw [← hG]; exact addOrderOf_dvd_natCard _
  have hle : Nat.card Secq ≤ _ := card_le (F := ZMod secpN)
  rw [ZMod.card] at hle
  obtain ⟨k, hk⟩ := hd
  have hpos : 0 < Nat.card Secq := Nat.card_pos
  have hlt : 2 * secpN + 1 < 2 * secpP := by decide +kernel
  have hk1 : k = 1 := by
    rcases k with _ | _ | k
    · omega
    · rfl
    · exfalso
      have : secpP * 2 ≤ secpP * (k + 1 + 1) := Nat.mul_le_mul_left _ (by omega)
      omega
  rw [hk, hk1, mul_one]

theorem card_secp : Nat.card Secp = secpN := by
  haveI : Fact (Nat.Prime secpN) := ⟨secpN_prime⟩
  have hG : addOrderOf (Point.some _ _ secpG_on : Secp) = secpN :=
    addOrderOf_eq_prime secpG_order (Point.some_ne_zero _)
  have hd : secpN ∣ Nat.card Secp := by rw [← hG]; exact addOrderOf_dvd_natCard _
  have hle : Nat.card Secp ≤ _ := card_le (F := ZMod secpP)
  rw [ZMod.card] at hle
  obtain ⟨k, hk⟩ := hd
  have hpos : 0 < Nat.card Secp := Nat.card_pos
  have hlt : 2 * secpP + 1 < secpN * 3 := by decide +kernel
  have hk1 : k = 1 := by
    rcases k with _ | _ | _ | k
    · omega
    · rfl
    · exfalso
      obtain ⟨P, hP⟩ := exists_prime_addOrderOf_dvd_card' (G := Secp) 2 (by rw [hk]; exact ⟨secpN, by ring⟩)
      have hP0 : P ≠ 0 := by rintro rfl; simp at hP
      have h2 : P + P = 0 := by
        have := addOrderOf_nsmul_eq_zero P
        rwa [hP, two_nsmul] at this
      obtain ⟨x, hx⟩ := two_torsion secp_consts.1 hP0 h2
      exact neg_seven_noncube x hx
    · exfalso
      have : secpN * 3 ≤ secpN * (k + 1 + 1 + 1) := Nat.mul_le_mul_left _ (by omega)
      omega
  rw [hk, hk1, mul_one]

end Koblitz
end Spartan
