import Verif.Model.SageParams
import Verif.Lemmas.H2C
import Mathlib.Algebra.Polynomial.SpecificDegree
import Mathlib.FieldTheory.Finite.Basic

/-!
C106: the constants of hash-to-curve are what the scripts compute, and meet the criteria of the standard.
-/

set_option exponentiation.threshold 2000

namespace Spartan

open MParams Sage Polynomial

/-! ### Certificates -/

section certs
variable {m : ℕ} [Fact m.Prime]

/-- A reason to reject a candidate: `(0, w)`: `w² = z`; `(1, w)`: the cubic has the root `w`; `(2, _)`: the candidate is -1. -/
def rejects (m A B z : ℕ) (c : ℕ × ℕ) : Bool :=
  match c.1 with
  | 0 => c.2 * c.2 % m == z % m
  | 1 => (c.2 ^ 3 + A * c.2 + B) % m == z % m
  | 2 => (z + 1) % m == 0
  | _ => false

theorem cubic_monic (A B Z : ZMod m) : (X ^ 3 + C A * X + C B - C Z : (ZMod m)[X]).Monic ∧
    (X ^ 3 + C A * X + C B - C Z : (ZMod m)[X]).natDegree = 3 := by
  have e : (X ^ 3 + C A * X + C B - C Z : (ZMod m)[X]) = X ^ 3 + (C A * X + C (B - Z)) := by
    rw [C_sub]; ring
  have hd : (C A * X + C (B - Z) : (ZMod m)[X]).degree < ((3 : ℕ) : WithBot ℕ) :=
    (degree_linear_le).trans_lt (by exact_mod_cast (by decide : 1 < 3))
  rw [e]
  refine ⟨monic_X_pow_add hd, natDegree_eq_of_degree_eq_some ?_⟩
  rw [degree_add_eq_left_of_degree_lt (by rw [degree_X_pow]; exact hd), degree_X_pow]

theorem cast_ne_zero_gen {n : ℕ} (h : n % m ≠ 0) : ((n : ℕ) : ZMod m) ≠ 0 := by
  rw [Ne, ZMod.natCast_eq_zero_iff]
  intro hd
  exact h (Nat.mod_eq_zero_of_dvd hd)

theorem cubic_eval (A B Z t : ZMod m) :
    (X ^ 3 + C A * X + C B - C Z : (ZMod m)[X]).eval t = t ^ 3 + A * t + B - Z := by simp

theorem rejects_spec {A B z : ℕ} {c : ℕ × ℕ} (h : rejects m A B z c = true) :
    ¬ ZOk (A : ZMod m) (B : ZMod m) (z : ZMod m) := by
  obtain ⟨k, w⟩ := c
  rintro ⟨h1, h2, h3, -⟩
  match k, h with
  | 0, h =>
    refine h1 ⟨(w : ZMod m), ?_⟩
    have := cast_eq_of_mod (m := m) (beq_iff_eq.mp h)
    rw [← this, Nat.cast_mul]
  | 1, h =>
    have e := cast_eq_of_mod (m := m) (beq_iff_eq.mp h)
    rw [Nat.cast_add, Nat.cast_add, Nat.cast_mul, Nat.cast_pow] at e
    have hr := ((cubic_monic (m := m) A B z).1.irreducible_iff_roots_eq_zero_of_degree_le_three
      (by rw [(cubic_monic (m := m) A B z).2]; omega) (by rw [(cubic_monic (m := m) A B z).2])).mp h3
    have : (w : ZMod m) ∈ (X ^ 3 + C (A : ZMod m) * X + C (B : ZMod m) - C (z : ZMod m) : (ZMod m)[X]).roots := by
      rw [mem_roots (cubic_monic (m := m) A B z).1.ne_zero, IsRoot, cubic_eval, e, sub_self]
    rw [hr] at this
    exact Multiset.notMem_zero _ this
  | 2, h =>
    have h' : (z + 1) % m = 0 % m := by rw [Nat.zero_mod]; exact beq_iff_eq.mp h
    have e := cast_eq_of_mod h'
    rw [Nat.cast_add, Nat.cast_one, Nat.cast_zero] at e
    exact h2 (eq_neg_of_add_eq_zero_left e)
  | k + 3, h => exact absurd h (by simp [rejects])

/-- Rows of reasons for the candidates `ctr, -ctr, ctr + 1, …`. -/
def rejectsAll (m A B : ℕ) : ℕ → List ((ℕ × ℕ) × (ℕ × ℕ)) → Bool
  | _, [] => true
  | ctr, c :: cs => rejects m A B ctr c.1 && rejects m A B (m - ctr) c.2 && rejectsAll m A B (ctr + 1) cs

theorem findZ_skip {A B : ℕ} (cs : List ((ℕ × ℕ) × (ℕ × ℕ))) : ∀ {ctr : ℕ} (fuel : ℕ), ctr + cs.length ≤ m →
    rejectsAll m A B ctr cs = true →
    findZ (A : ZMod m) (B : ZMod m) (fuel + cs.length) ctr = findZ (A : ZMod m) (B : ZMod m) fuel (ctr + cs.length) := by
  induction cs with
  | nil => intro ctr fuel _ _; rfl
  | cons c cs ih =>
    intro ctr fuel hm h
    simp only [rejectsAll, Bool.and_eq_true] at h
    rw [List.length_cons] at hm
    have hneg : -(ctr : ZMod m) = ((m - ctr : ℕ) : ZMod m) := by
      rw [Nat.cast_sub (by omega), ZMod.natCast_self, zero_sub]
    rw [List.length_cons, ← add_assoc, findZ, if_neg (rejects_spec h.1.1),
      if_neg (by rw [hneg]; exact rejects_spec h.1.2), ih fuel (by omega) h.2]
    congr 1
    omega

/-- Product of two polynomials of degree below 3 modulo `x³ = n₁ x + n₀`, with coefficients modulo `m`. -/
def mul3 (m n1 n0 : ℕ) (u v : ℕ × ℕ × ℕ) : ℕ × ℕ × ℕ :=
  let r3 := u.2.1 * v.2.2 + u.2.2 * v.2.1
  let r4 := u.2.2 * v.2.2
  ((u.1 * v.1 + n0 * r3) % m,
   (u.1 * v.2.1 + u.2.1 * v.1 + n1 * r3 + n0 * r4) % m,
   (u.1 * v.2.2 + u.2.1 * v.2.1 + u.2.2 * v.1 + n1 * r4) % m)

def ev3 (t : ZMod m) (u : ℕ × ℕ × ℕ) : ZMod m := (u.1 : ZMod m) + (u.2.1 : ZMod m) * t + (u.2.2 : ZMod m) * t ^ 2

theorem mul3_ev {n1 n0 : ℕ} {t : ZMod m} (ht : t ^ 3 = (n1 : ZMod m) * t + (n0 : ZMod m)) (u v : ℕ × ℕ × ℕ) :
    ev3 t (mul3 m n1 n0 u v) = ev3 t u * ev3 t v := by
  obtain ⟨a, b, c⟩ := u
  obtain ⟨d, e, f⟩ := v
  simp only [ev3, mul3, ZMod.natCast_mod, Nat.cast_add, Nat.cast_mul]
  linear_combination (-((b : ZMod m) * f + c * e) - c * f * t) * ht

/-- The power of `x` whose exponent has the bits `bs` (highest first) after those already done. -/
def pow3 (m n1 n0 : ℕ) : List Bool → ℕ × ℕ × ℕ → ℕ × ℕ × ℕ
  | [], s => s
  | b :: bs, s =>
    let s := mul3 m n1 n0 s s
    pow3 m n1 n0 bs (if b then mul3 m n1 n0 s (0, 1, 0) else s)

def bitsNat : List Bool → ℕ → ℕ
  | [], n => n
  | b :: bs, n => bitsNat bs (2 * n + b.toNat)

theorem pow3_ev {n1 n0 : ℕ} {t : ZMod m} (ht : t ^ 3 = (n1 : ZMod m) * t + (n0 : ZMod m)) (bs : List Bool) :
    ∀ (s : ℕ × ℕ × ℕ) (n : ℕ), ev3 t s = t ^ n → ev3 t (pow3 m n1 n0 bs s) = t ^ bitsNat bs n := by
  have h1 : ev3 t (0, 1, 0) = t := by simp [ev3]
  induction bs with
  | nil => intro s n h; exact h
  | cons b bs ih =>
    intro s n h
    rw [pow3, bitsNat]
    refine ih _ _ ?_
    cases b
    · rw [if_neg (by decide), mul3_ev ht, h, Bool.toNat_false, add_zero, two_mul, pow_add]
    · rw [if_pos rfl, mul3_ev ht, mul3_ev ht, h, h1, Bool.toNat_true, pow_succ, two_mul, pow_add]

/-- An inverse of `x ^ m - x` modulo the cubic shows that the cubic has no root. -/
def noRoot (m n1 n0 : ℕ) (inv : ℕ × ℕ × ℕ) : Bool :=
  let r := pow3 m n1 n0 ((List.range 256).map fun i => m.testBit (255 - i)) (1, 0, 0)
  mul3 m n1 n0 inv (r.1, r.2.1 + (m - 1), r.2.2) == (1, 0, 0)

theorem noRoot_spec {A B Z n1 n0 : ℕ} {inv : ℕ × ℕ × ℕ} (hb : bitsNat ((List.range 256).map fun i => m.testBit (255 - i)) 0 = m)
    (h1 : (n1 + A) % m = 0) (h0 : (n0 + B) % m = Z % m) (h : noRoot m n1 n0 inv = true) :
    Irreducible (X ^ 3 + C (A : ZMod m) * X + C (B : ZMod m) - C (Z : ZMod m) : (ZMod m)[X]) := by
  have hm1 : 1 ≤ m := (Fact.out : m.Prime).one_lt.le
  have hr := (cubic_monic (m := m) A B Z).1.irreducible_iff_roots_eq_zero_of_degree_le_three
      (by rw [(cubic_monic (m := m) A B Z).2]; omega) (by rw [(cubic_monic (m := m) A B Z).2])
  rw [hr]
  refine Multiset.eq_zero_of_forall_notMem fun t ht => ?_
  rw [mem_roots (cubic_monic (m := m) A B Z).1.ne_zero, IsRoot, cubic_eval] at ht
  have e1 : (n1 : ZMod m) + A = 0 := by
    have := cast_eq_of_mod (m := m) (a := n1 + A) (b := 0) (by rw [h1, Nat.zero_mod])
    rwa [Nat.cast_add, Nat.cast_zero] at this
  have e0 : (n0 : ZMod m) + B = Z := by
    have := cast_eq_of_mod (m := m) h0
    rwa [Nat.cast_add] at this
  have ht3 : t ^ 3 = (n1 : ZMod m) * t + (n0 : ZMod m) := by
    linear_combination ht - t * e1 - e0
  have hp := pow3_ev ht3 ((List.range 256).map fun i => m.testBit (255 - i)) (1, 0, 0) 0 (by simp [ev3])
  rw [hb, ZMod.pow_card] at hp
  have hm := mul3_ev ht3 inv ((pow3 m n1 n0 ((List.range 256).map fun i => m.testBit (255 - i)) (1, 0, 0)).1,
    (pow3 m n1 n0 ((List.range 256).map fun i => m.testBit (255 - i)) (1, 0, 0)).2.1 + (m - 1),
    (pow3 m n1 n0 ((List.range 256).map fun i => m.testBit (255 - i)) (1, 0, 0)).2.2)
  rw [show mul3 m n1 n0 inv _ = (1, 0, 0) from beq_iff_eq.mp h] at hm
  generalize pow3 m n1 n0 ((List.range 256).map fun i => m.testBit (255 - i)) (1, 0, 0) = s at hp hm
  have hz : ev3 t (s.1, s.2.1 + (m - 1), s.2.2) = 0 := by
    have hc : ((m - 1 : ℕ) : ZMod m) = -1 := by rw [Nat.cast_sub hm1, ZMod.natCast_self, zero_sub, Nat.cast_one]
    simp only [ev3] at hp ⊢
    rw [Nat.cast_add, hc]
    linear_combination hp
  rw [hz, mul_zero] at hm
  simp [ev3] at hm

end certs

/-! ### The commitment curve -/

theorem ne_neg_oneQ : (1 : ZMod secpN) ≠ -1 := by
  rw [← pred_cast valid_Q]
  intro h
  rw [← Nat.cast_one] at h
  exact absurd ((ZMod.natCast_eq_natCast_iff' _ _ _).mp h) (by decide +kernel)

theorem ne_neg_oneP : (1 : ZMod secpP) ≠ -1 := by
  rw [← pred_cast valid_P]
  intro h
  rw [← Nat.cast_one] at h
  exact absurd ((ZMod.natCast_eq_natCast_iff' _ _ _).mp h) (by decide +kernel)

/-- Why the candidates before -14 are rejected. -/
def zCertsQ : List ((ℕ × ℕ) × (ℕ × ℕ)) := [
  ((0, 1), (0, 64826877121840101682523629462674967702937679580369334126295633893540044112329)),
  ((0, 2823942750030662837874242031155578187138543190171473581917399304008038956128), (0, 46239318359946500877808137103599566522157007146392780907075090443124118085143)),
  ((0, 24072837944532857114988964787309897232769486724586950421646983585970081025912), (0, 40355928511004201617718542041737866950982249168109730405371922055742165534300)),
  ((0, 2), (0, 13861665006364007941476273916662027553037794881663763869986104645561926730321)),
  ((1, 8415937534733287099578270566549624209755227157113885562316855207718681758869), (1, 74522900355370589809114591088811196449092090041511009133249195166555149937909)),
  ((0, 41865717285151072484151039586318076652848585584624857012443388139907466891264), (0, 59980879256328871784876513598087116097175950269633677332374913984092142643344)),
  ((1, 95137884046437551776351517436434926580099696432889486409388561709571574609005), (1, 96210209032807762329828836323946587973126720002628662436876336166352436925606)),
  ((0, 5647885500061325675748484062311156374277086380342947163834798608016077912256), (0, 92478636719893001755616274207199133044314014292785561814150180886248236170286)),
  ((0, 3), (0, 78688542128204109623999903379336995255975474462033097996281738539101970842650)),
  ((1, 82839711211016023918062938893162475912696080604559033891767438996084347236967), (1, 15301660779600416384446793281750762434433591836374316225452257510578361411315)),
  ((0, 60187421424264122734729849448585390372961521785666503442714906186430024982612), (0, 69708604695005787228877654076728559594940679249632468162935126533468201375607)),
  ((0, 48145675889065714229977929574619794465538973449173900843293967171940162051824), (0, 80711857022008403235437084083475733901964498336219460810743844111484331068600)),
  ((0, 76194697343358499900231236408005999604875016187300535279983984348952255873028), (0, 60129657184345223868394179339874119889824225455586211379701810481061199661689))]

theorem zOkQ : ZOk (iso_A : ZMod secpN) (iso_B : ZMod secpN) (-14) := by
  refine ⟨?_, ?_, ?_, ?_⟩
  · intro h
    have hv := sqrtConstsQ_valid.nonsq
    obtain ⟨w, hw⟩ := h
    have hw0 : w ≠ 0 := by
      rintro rfl
      rw [mul_zero] at hw
      rw [hw, zero_pow (by decide +kernel)] at hv
      exact absurd hv.symm (neg_ne_zero.mpr one_ne_zero)
    rw [hw, ← pow_two, ← pow_mul, show 2 * ((secpN - 1) / 2) = secpN - 1 by decide +kernel, ZMod.pow_card_sub_one_eq_one hw0] at hv
    exact absurd hv (ne_neg_oneQ)
  · rw [neg14]
    intro h
    have h' : ((secpN - 14 : ℕ) : ZMod secpN) = ((secpN - 1 : ℕ) : ZMod secpN) := by
      rw [h, pred_cast valid_Q]
    exact absurd ((ZMod.natCast_eq_natCast_iff' _ _ _).mp h') (by decide +kernel)
  · rw [neg14]
    exact noRoot_spec (n1 := secpN - iso_A) (n0 := secpN - 14 - iso_B) (inv := (18964123792332648040990748778905327904946231517111302064537795125056006770353, 97856216747918914807366186339447668907884529083435057213743728487169312903053, 19406888238650490802389158636605266243974632283904095918937564914702977821473))
      (by decide +kernel) (by decide +kernel) (by decide +kernel) (by decide +kernel)
  · refine ⟨((1829073408292778737939774445678431328796603216569896565133563955713005278252 : ℕ) : ZMod secpN), ?_⟩
    have hx : (iso_B : ZMod secpN) / ((-14) * (iso_A : ZMod secpN)) = ((102200123046123364714653193882129111733536103399449501982524930569131283434458 : ℕ) : ZMod secpN) := by
      rw [neg14, ← Nat.cast_mul, div_eq_iff (cast_ne_zero_gen (by decide +kernel)), ← Nat.cast_mul]
      exact cast_eq_of_mod (by decide +kernel)
    rw [hx, ← Nat.cast_pow, ← Nat.cast_mul, ← Nat.cast_add, ← Nat.cast_add, ← Nat.cast_mul]
    exact cast_eq_of_mod (by decide +kernel)

theorem findZQ {fuel : ℕ} (hf : 14 ≤ fuel) :
    findZ (iso_A : ZMod secpN) (iso_B : ZMod secpN) fuel 1 = some (-14) := by
  obtain ⟨k, rfl⟩ : ∃ k, fuel = (k + 1) + zCertsQ.length := ⟨fuel - 14, by
    rw [show zCertsQ.length = 13 by decide]; omega⟩
  rw [findZ_skip zCertsQ (k + 1) (by decide +kernel) (by decide +kernel), show 1 + zCertsQ.length = 14 by decide, findZ]
  have e : (-((14 : ℕ) : ZMod secpN)) = -14 := by norm_num
  rw [e, if_neg, if_pos zOkQ]
  exact rejects_spec (c := (1, 58611019971653339062754782726781025849758035562395037079398016355401649455306)) (by decide +kernel)

/-! ### secp256k1 -/

/-- The coefficients of the curve isogenous to secp256k1 (`sswu_generic.sage` l. 103–105; `hashtocurve.rs` l. 88–99). -/
def isoP_A : ℕ := 28734576633528757162648956269730739219262246272443394170905244663053633733939
def isoP_B : ℕ := 1771

/-- Why the candidates before -11 are rejected. -/
def zCertsP : List ((ℕ × ℕ) × (ℕ × ℕ)) := [
  ((0, 1), (2, 0)),
  ((0, 14948361426284523007780350147288027888107167579622651558244346453762823115767), (1, 98456339493754976643834021276714488965438992284571486722954037517990106310041)),
  ((1, 96219414619971945492238664675769072968870407079163855674061196390754807389640), (0, 4602937940656409685400179041082242364498080236264115595900560044423621507154)),
  ((0, 2), (1, 35619061186948998242807752902489472970510786401052424995542323090039668852159)),
  ((1, 46742213245152772265686310769648759189143842764337008375394273110361466568103), (0, 61197657456629166589646500528435838785340153187612046539465817808975632587094)),
  ((1, 4749280771962559001953990253876320922308714642567525595526435938434166278519), (0, 5194389836662979989662726313411894162497359183832872900194037722989987713543)),
  ((1, 62039497816578942066216190673585487159041045360813742605083880612634887308709), (0, 64828261740814840065360381756190772627110652128289340260788836867053167272156)),
  ((0, 29896722852569046015560700294576055776214335159245303116488692907525646231534), (1, 63010012930464052331985302904819114780961522400544076735250323844486727156197)),
  ((0, 115792089237316195423570985008687907853269984665640564039457584007908834671660), (1, 55357006983269335847170378466952379292363321875331114345925160485750304989954)),
  ((1, 53835208798602685031942555647957014828084842500409963544470932928604585799773), (0, 31011223725017966638128227314025066779206457760849946047862801023559985823831))]

theorem zOkP : ZOk (isoP_A : ZMod secpP) (isoP_B : ZMod secpP) (-11) := by
  refine ⟨?_, ?_, ?_, ?_⟩
  · intro h
    have hv := sqrtConstsP_valid.nonsq
    obtain ⟨w, hw⟩ := h
    have hw0 : w ≠ 0 := by
      rintro rfl
      rw [mul_zero] at hw
      rw [hw, zero_pow (by decide +kernel)] at hv
      exact absurd hv.symm (neg_ne_zero.mpr one_ne_zero)
    rw [hw, ← pow_two, ← pow_mul, show 2 * ((secpP - 1) / 2) = secpP - 1 by decide +kernel, ZMod.pow_card_sub_one_eq_one hw0] at hv
    exact absurd hv (ne_neg_oneP)
  · rw [neg11]
    intro h
    have h' : ((secpP - 11 : ℕ) : ZMod secpP) = ((secpP - 1 : ℕ) : ZMod secpP) := by
      rw [h, pred_cast valid_P]
    exact absurd ((ZMod.natCast_eq_natCast_iff' _ _ _).mp h') (by decide +kernel)
  · rw [neg11]
    exact noRoot_spec (n1 := secpP - isoP_A) (n0 := secpP - 11 - isoP_B) (inv := (56179880588070225922454731047959992505358798209241466434840407255100891950075, 53359159126584722047312750710519471606855597545309331480880906789930617337285, 9148106998757335558052996675327353432896443995991123964390537935229066214836))
      (by decide +kernel) (by decide +kernel) (by decide +kernel) (by decide +kernel)
  · refine ⟨((18364601681750688294657986852423245333803871022936718218329797708983130841480 : ℕ) : ZMod secpP), ?_⟩
    have hx : (isoP_B : ZMod secpP) / ((-11) * (isoP_A : ZMod secpP)) = ((84696452356521335330109137840758697432857528317706937927279952333543666418577 : ℕ) : ZMod secpP) := by
      rw [neg11, ← Nat.cast_mul, div_eq_iff (cast_ne_zero_gen (by decide +kernel)), ← Nat.cast_mul]
      exact cast_eq_of_mod (by decide +kernel)
    rw [hx, ← Nat.cast_pow, ← Nat.cast_mul, ← Nat.cast_add, ← Nat.cast_add, ← Nat.cast_mul]
    exact cast_eq_of_mod (by decide +kernel)

theorem findZP {fuel : ℕ} (hf : 11 ≤ fuel) :
    findZ (isoP_A : ZMod secpP) (isoP_B : ZMod secpP) fuel 1 = some (-11) := by
  obtain ⟨k, rfl⟩ : ∃ k, fuel = (k + 1) + zCertsP.length := ⟨fuel - 11, by
    rw [show zCertsP.length = 10 by decide]; omega⟩
  rw [findZ_skip zCertsP (k + 1) (by decide +kernel) (by decide +kernel), show 1 + zCertsP.length = 11 by decide, findZ]
  have e : (-((11 : ℕ) : ZMod secpP)) = -11 := by norm_num
  rw [e, if_neg, if_pos zOkP]
  exact rejects_spec (c := (0, 22612019078283109002402354608917265420620653587239490778472842791191070919257)) (by decide +kernel)

/-! ### The property -/

/-- C106.  The script chooses the constant `Z` of `affine.rs`, for the curve with the coefficients of `affine.rs`. -/
theorem script_z {fuel : ℕ} (hf : 14 ≤ fuel) : ∃ A B Z, isoA.Rep secpN A ∧ isoB.Rep secpN B ∧ isoZ.Rep secpN Z ∧
    findZ A B fuel 1 = some Z :=
  ⟨_, _, _, rep_isoA, rep_isoB, rep_isoZ, findZQ hf⟩

/-- C106.  The constants `C1`, `C3` to `C7` of `field_secq.rs` are what the script computes for that `Z`. -/
theorem script_sqrt_secq : ∀ P, P = sqrtRatioParams secpN (-14) →
    sqrtConstsQ.c1 = P.c1 ∧ sqrtConstsQ.c3.Rep secpN (P.c3 : ℕ) ∧ sqrtConstsQ.c4.Rep secpN (P.c4 : ℕ) ∧
    sqrtConstsQ.c5.Rep secpN (P.c5 : ℕ) ∧ sqrtConstsQ.c6.Rep secpN P.c6 ∧ sqrtConstsQ.c7.Rep secpN P.c7 := by
  rintro P rfl
  have h1 : lastPow (secpN - 1) = 6 := by
    decide +kernel
  have h7 : (-14 : ZMod secpN) ^ (((secpN - 1) / 2 ^ 6 + 1) / 2) = ((94159471864959118282773103057807800350405967619523989516086101139055882323203 : ℕ) : ZMod secpN) := by
    rw [neg14]
    exact cast_pow_of_powMod (k := 256) (by decide +kernel) (by decide +kernel)
  refine ⟨by simp only [sqrtRatioParams, h1]; rfl, ?_, ?_, ?_, ?_, ?_⟩
  · simp only [sqrtRatioParams, h1]; exact sqrtConstsQ_valid.c3
  · simp only [sqrtRatioParams, h1]; exact sqrtConstsQ_valid.c4
  · simp only [sqrtRatioParams, h1]; exact sqrtConstsQ_valid.c5
  · simp only [sqrtRatioParams, h1]; exact sqrtConstsQ_valid.c6
  · simp only [sqrtRatioParams, h1, h7]; exact rep_const (by decide +kernel)

/-- C106.  The same for secp256k1 and `field_secp.rs`, with `Z = -11`. -/
theorem script_sqrt_secp : ∀ P, P = sqrtRatioParams secpP (-11) →
    sqrtConstsP.c1 = P.c1 ∧ sqrtConstsP.c3.Rep secpP (P.c3 : ℕ) ∧ sqrtConstsP.c4.Rep secpP (P.c4 : ℕ) ∧
    sqrtConstsP.c5.Rep secpP (P.c5 : ℕ) ∧ sqrtConstsP.c6.Rep secpP P.c6 ∧ sqrtConstsP.c7.Rep secpP P.c7 := by
  rintro P rfl
  have h1 : lastPow (secpP - 1) = 1 := by
    decide +kernel
  have h7 : (-11 : ZMod secpP) ^ (((secpP - 1) / 2 ^ 1 + 1) / 2) = ((22612019078283109002402354608917265420620653587239490778472842791191070919257 : ℕ) : ZMod secpP) := by
    rw [neg11]
    exact cast_pow_of_powMod (k := 256) (by decide +kernel) (by decide +kernel)
  refine ⟨by simp only [sqrtRatioParams, h1]; rfl, ?_, ?_, ?_, ?_, ?_⟩
  · simp only [sqrtRatioParams, h1]; exact sqrtConstsP_valid.c3
  · simp only [sqrtRatioParams, h1]; exact sqrtConstsP_valid.c4
  · simp only [sqrtRatioParams, h1]; exact sqrtConstsP_valid.c5
  · simp only [sqrtRatioParams, h1]; exact sqrtConstsP_valid.c6
  · simp only [sqrtRatioParams, h1, h7]; exact rep_const (by decide +kernel)

/-- The script's choice for secp256k1. -/
theorem script_z_secp {fuel : ℕ} (hf : 11 ≤ fuel) : findZ (isoP_A : ZMod secpP) (isoP_B : ZMod secpP) fuel 1 = some (-11) :=
  findZP hf

/-- The criteria of RFC 9380, section 6.6.2, for the constants of the code: `Z` is no square and not -1, the cubic minus
`Z` is irreducible, and the map is defined at the exceptional arguments. -/
theorem z_criteria : ∃ A B Z, isoA.Rep secpN A ∧ isoB.Rep secpN B ∧ isoZ.Rep secpN Z ∧ A ≠ 0 ∧ B ≠ 0 ∧
    ¬ IsSquare Z ∧ Z ≠ -1 ∧ Irreducible (X ^ 3 + C A * X + C B - C Z : (ZMod secpN)[X]) ∧
    IsSquare ((B / (Z * A)) ^ 3 + A * (B / (Z * A)) + B) :=
  ⟨_, _, _, rep_isoA, rep_isoB, rep_isoZ, iso_A_ne, cast_ne_zero_gen (by decide +kernel), zOkQ⟩

end Spartan
