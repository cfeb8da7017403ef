import Verif.Lemmas.FieldOps

/-!
Hash-to-curve: the simplified SWU map, the 3-isogeny, and the `sqrt_ratio` constants.
-/

set_option exponentiation.threshold 2000

namespace Spartan
namespace MParams

variable {M : MParams} {m : Nat}

/-- An equality of residues from an equality of remainders. -/
theorem cast_eq_of_mod {a b : Nat} (h : a % m = b % m) : (a : ZMod m) = (b : ZMod m) := by
  have : ((a % m : ℕ) : ZMod m) = ((b % m : ℕ) : ZMod m) := by rw [h]
  rwa [ZMod.natCast_mod, ZMod.natCast_mod] at this

theorem cast_pow_of_powMod {a e k n : Nat} (hk : e < 2 ^ k) (h : powMod m a e k % m = n % m) :
    (a : ZMod m) ^ e = (n : ZMod m) := by
  rw [powMod_eq hk] at h
  have := cast_eq_of_mod h
  rwa [Nat.cast_pow] at this

theorem neg14 : (-14 : ZMod secpN) = ((secpN - 14 : ℕ) : ZMod secpN) := by
  rw [eq_comm, ← sub_eq_zero, sub_neg_eq_add]
  have h : ((secpN - 14 + 14 : ℕ) : ZMod secpN) = 0 := by
    rw [show secpN - 14 + 14 = secpN by decide +kernel]; exact ZMod.natCast_self _
  rw [Nat.cast_add] at h
  exact_mod_cast h

theorem neg11 : (-11 : ZMod secpP) = ((secpP - 11 : ℕ) : ZMod secpP) := by
  rw [eq_comm, ← sub_eq_zero, sub_neg_eq_add]
  have h : ((secpP - 11 + 11 : ℕ) : ZMod secpP) = 0 := by
    rw [show secpP - 11 + 11 = secpP by decide +kernel]; exact ZMod.natCast_self _
  rw [Nat.cast_add] at h
  exact_mod_cast h

theorem pred_cast (hM : M.Valid m) : ((m - 1 : ℕ) : ZMod m) = -1 := by
  have h : ((m - 1 + 1 : ℕ) : ZMod m) = 0 := by
    rw [Nat.sub_add_cancel (by have := hM.pos; omega)]; exact ZMod.natCast_self _
  rw [Nat.cast_add, Nat.cast_one] at h
  exact eq_neg_of_add_eq_zero_left h

/-- The constants of `field_secq.rs` are those of the algorithm with `Z = -14`. -/
theorem sqrtConstsQ_valid : sqrtConstsQ.Valid secpN ((secpN - 1) / 64) (-14) := by
  have hZT : (-14 : ZMod secpN) ^ ((secpN - 1) / 64) = ((110311768741588258819775753290068347910167536649173269426897453508275181317711 : ℕ) : ZMod secpN) := by
    rw [neg14]
    exact cast_pow_of_powMod (k := 256) (by decide +kernel) (by decide +kernel)
  refine ⟨by decide, by decide, by decide +kernel, by decide +kernel, by decide +kernel,
    rep_const (by decide +kernel), rep_const (by decide +kernel), rep_const (by decide +kernel),
    ?_, ⟨((94159471864959118282773103057807800350405967619523989516086101139055882323203 : ℕ) : ZMod secpN), rep_const (by decide +kernel), ?_⟩, ?_⟩
  · rw [hZT]; exact rep_const (by decide +kernel)
  · rw [hZT, neg14, ← Nat.cast_pow, ← Nat.cast_mul]
    exact cast_eq_of_mod (by decide +kernel)
  · rw [← pred_cast valid_Q, neg14]
    exact cast_pow_of_powMod (k := 256) (by decide +kernel) (by decide +kernel)

/-- The constants of `field_secp.rs` are those of the algorithm with `Z = -11`. -/
theorem sqrtConstsP_valid : sqrtConstsP.Valid secpP ((secpP - 1) / 2) (-11) := by
  have hZT : (-11 : ZMod secpP) ^ ((secpP - 1) / 2) = ((secpP - 1 : ℕ) : ZMod secpP) := by
    rw [neg11]
    exact cast_pow_of_powMod (k := 256) (by decide +kernel) (by decide +kernel)
  refine ⟨by decide, by decide, by decide +kernel, by decide +kernel, by decide +kernel,
    rep_const (by decide +kernel), rep_const (by decide +kernel), rep_const (by decide +kernel),
    ?_, ⟨((22612019078283109002402354608917265420620653587239490778472842791191070919257 : ℕ) : ZMod secpP), rep_const (by decide +kernel), ?_⟩, ?_⟩
  · rw [hZT]; exact rep_const (by decide +kernel)
  · rw [hZT, neg11, ← Nat.cast_pow, ← Nat.cast_mul]
    exact cast_eq_of_mod (by decide +kernel)
  · rw [hZT, pred_cast valid_P]

/-! ### The isogeny -/

/-- The isogeny constants as integers, and the coefficients after the shift `x = z - c`. -/
def iso_c : Nat := 9889402127832550915060102066815118439375301163001314617863356419622582490190
def iso_g1 : Nat := 46681135293330993914695662347414793048230413894347550389448104675285965677572
def iso_g2 : Nat := 86123882853818542678390678808242552534711660790070960529015093882650414023767
def iso_x0 : Nat := 64328938465175664124206102782604393251576424599486057990336201745287867496857
def iso_x1 : Nat := 48970948699845619344456031080099256628330391180657757102967966530569601759795
def iso_x2 : Nat := 76095903699562735736262867553923592075294453834605345741974180269942931830648
def iso_x3 : Nat := 64328938465175664124206102782604393251576424599486057990336201745287867496854
def iso_y0 : Nat := 111503493339637817815290578156514281636065802639109167183249416358498970327878
def iso_y1 : Nat := 22273713512490192026371651309529550408169057699472382426545732203649519911514
def iso_y3 : Nat := 60040342567497286515925695930430767034804662959520320790980454962268676330397
def iso_A : Nat := 3642995984045157452672683439396299070953881827175886364060394186787010798372
def iso_B : Nat := 1771
def iso_k0 : Nat := 64328938465175664124206102782604393251576424599486057990336201745287867496854
def iso_k1 : Nat := 79392371075506919374616234909528631555086220888939117281261965743150459327378
def iso_k2 : Nat := 33410570268735288039557476964294325612253586549208573639818598305474279867271
def iso_k3 : Nat := 64328938465175664124206102782604393251576424599486057990336201745287867496913
def iso_k4 : Nat := 19778804255665101830120204133630236878750602326002629235726712839245164980380
def iso_k5 : Nat := 91540772594639409103054982975131436560983886875107157596866012257178425955958
def iso_k6 : Nat := 60040342567497286515925695930430767034804662959520320790980454962268676330397
def iso_k7 : Nat := 39696185537753459687308117454764315777543110444469558640630982871575229663689
def iso_k8 : Nat := 6713335081379860721473097193724619392092253068023198963396363978554198018990
def iso_k9 : Nat := 72906130260532419340766916486951645685119947879417532389047695311326249829719
def iso_k10 : Nat := 29668206383497652745180306200445355318125903489003943853590069258867747470570
def iso_k11 : Nat := 43038139309285836462022978908018493977276532067171664025387710488498954879200
def iso_k12 : Nat := 115792089237316195423570985008687907852837564279074904382605163141518161493581

/-- The coefficient equations of the isogeny. -/
theorem iso_eq_g2 : (((iso_g2 + 3 * iso_c : ℕ)) : ZMod secpN) = ((0 : ℕ) : ZMod secpN) :=
  cast_eq_of_mod (by decide +kernel)
theorem iso_eq_g1 : (((iso_g1 : ℕ)) : ZMod secpN) = ((3 * iso_c ^ 2 + iso_A : ℕ) : ZMod secpN) :=
  cast_eq_of_mod (by decide +kernel)
theorem iso_eq_g0 : (((iso_B : ℕ)) : ZMod secpN) = ((7 + iso_c ^ 3 + iso_A * iso_c : ℕ) : ZMod secpN) :=
  cast_eq_of_mod (by decide +kernel)
theorem iso_eq_xn3 : (((iso_k0 : ℕ)) : ZMod secpN) = ((iso_x3 : ℕ) : ZMod secpN) :=
  cast_eq_of_mod (by decide +kernel)
theorem iso_eq_xn2 : (((iso_k1 : ℕ)) : ZMod secpN) = ((3 * iso_x3 * iso_c + iso_x2 : ℕ) : ZMod secpN) :=
  cast_eq_of_mod (by decide +kernel)
theorem iso_eq_xn1 : (((iso_k2 : ℕ)) : ZMod secpN) = ((3 * iso_x3 * iso_c ^ 2 + 2 * iso_x2 * iso_c + iso_x1 : ℕ) : ZMod secpN) :=
  cast_eq_of_mod (by decide +kernel)
theorem iso_eq_xn0 : (((iso_k3 : ℕ)) : ZMod secpN) = ((iso_x3 * iso_c ^ 3 + iso_x2 * iso_c ^ 2 + iso_x1 * iso_c + iso_x0 : ℕ) : ZMod secpN) :=
  cast_eq_of_mod (by decide +kernel)
theorem iso_eq_yn3 : (((iso_k6 : ℕ)) : ZMod secpN) = ((iso_y3 : ℕ) : ZMod secpN) :=
  cast_eq_of_mod (by decide +kernel)
theorem iso_eq_yn2 : (((iso_k7 : ℕ)) : ZMod secpN) = ((3 * iso_y3 * iso_c + 0 : ℕ) : ZMod secpN) :=
  cast_eq_of_mod (by decide +kernel)
theorem iso_eq_yn1 : (((iso_k8 : ℕ)) : ZMod secpN) = ((3 * iso_y3 * iso_c ^ 2 + 2 * 0 * iso_c + iso_y1 : ℕ) : ZMod secpN) :=
  cast_eq_of_mod (by decide +kernel)
theorem iso_eq_yn0 : (((iso_k9 : ℕ)) : ZMod secpN) = ((iso_y3 * iso_c ^ 3 + 0 * iso_c ^ 2 + iso_y1 * iso_c + iso_y0 : ℕ) : ZMod secpN) :=
  cast_eq_of_mod (by decide +kernel)
theorem iso_eq_d4 : (((iso_k4 : ℕ)) : ZMod secpN) = ((2 * iso_c : ℕ) : ZMod secpN) :=
  cast_eq_of_mod (by decide +kernel)
theorem iso_eq_d5 : (((iso_k5 : ℕ)) : ZMod secpN) = ((iso_c ^ 2 : ℕ) : ZMod secpN) :=
  cast_eq_of_mod (by decide +kernel)
theorem iso_eq_d10 : (((iso_k10 : ℕ)) : ZMod secpN) = ((3 * iso_c : ℕ) : ZMod secpN) :=
  cast_eq_of_mod (by decide +kernel)
theorem iso_eq_d11 : (((iso_k11 : ℕ)) : ZMod secpN) = ((3 * iso_c ^ 2 : ℕ) : ZMod secpN) :=
  cast_eq_of_mod (by decide +kernel)
theorem iso_eq_d12 : (((iso_k12 : ℕ)) : ZMod secpN) = ((iso_c ^ 3 : ℕ) : ZMod secpN) :=
  cast_eq_of_mod (by decide +kernel)
theorem iso_eq_i0 : (((7 * iso_y0 * iso_y0 : ℕ)) : ZMod secpN) = ((iso_x0 * iso_x0 * iso_x0 : ℕ) : ZMod secpN) :=
  cast_eq_of_mod (by decide +kernel)
theorem iso_eq_i1 : (((2 * 7 * iso_y0 * iso_y1 + iso_g1 * iso_y0 * iso_y0 : ℕ)) : ZMod secpN) = ((3 * iso_x0 * iso_x0 * iso_x1 : ℕ) : ZMod secpN) :=
  cast_eq_of_mod (by decide +kernel)
theorem iso_eq_i2 : (((7 * iso_y1 * iso_y1 + 2 * iso_g1 * iso_y0 * iso_y1 + iso_g2 * iso_y0 * iso_y0 : ℕ)) : ZMod secpN) = ((3 * iso_x0 * iso_x0 * iso_x2 + 3 * iso_x0 * iso_x1 * iso_x1 : ℕ) : ZMod secpN) :=
  cast_eq_of_mod (by decide +kernel)
theorem iso_eq_i3 : (((2 * 7 * iso_y0 * iso_y3 + iso_g1 * iso_y1 * iso_y1 + 2 * iso_g2 * iso_y0 * iso_y1 + iso_y0 * iso_y0 : ℕ)) : ZMod secpN) = ((3 * iso_x0 * iso_x0 * iso_x3 + 6 * iso_x0 * iso_x1 * iso_x2 + iso_x1 * iso_x1 * iso_x1 : ℕ) : ZMod secpN) :=
  cast_eq_of_mod (by decide +kernel)
theorem iso_eq_i4 : (((2 * 7 * iso_y1 * iso_y3 + 2 * iso_g1 * iso_y0 * iso_y3 + iso_g2 * iso_y1 * iso_y1 + 2 * iso_y0 * iso_y1 : ℕ)) : ZMod secpN) = ((6 * iso_x0 * iso_x1 * iso_x3 + 3 * iso_x0 * iso_x2 * iso_x2 + 3 * iso_x1 * iso_x1 * iso_x2 : ℕ) : ZMod secpN) :=
  cast_eq_of_mod (by decide +kernel)
theorem iso_eq_i5 : (((2 * iso_g1 * iso_y1 * iso_y3 + 2 * iso_g2 * iso_y0 * iso_y3 + iso_y1 * iso_y1 : ℕ)) : ZMod secpN) = ((6 * iso_x0 * iso_x2 * iso_x3 + 3 * iso_x1 * iso_x1 * iso_x3 + 3 * iso_x1 * iso_x2 * iso_x2 : ℕ) : ZMod secpN) :=
  cast_eq_of_mod (by decide +kernel)
theorem iso_eq_i6 : (((7 * iso_y3 * iso_y3 + 2 * iso_g2 * iso_y1 * iso_y3 + 2 * iso_y0 * iso_y3 : ℕ)) : ZMod secpN) = ((3 * iso_x0 * iso_x3 * iso_x3 + 6 * iso_x1 * iso_x2 * iso_x3 + iso_x2 * iso_x2 * iso_x2 + 7 : ℕ) : ZMod secpN) :=
  cast_eq_of_mod (by decide +kernel)
theorem iso_eq_i7 : (((iso_g1 * iso_y3 * iso_y3 + 2 * iso_y1 * iso_y3 : ℕ)) : ZMod secpN) = ((3 * iso_x1 * iso_x3 * iso_x3 + 3 * iso_x2 * iso_x2 * iso_x3 : ℕ) : ZMod secpN) :=
  cast_eq_of_mod (by decide +kernel)
theorem iso_eq_i8 : (((iso_g2 * iso_y3 * iso_y3 : ℕ)) : ZMod secpN) = ((3 * iso_x2 * iso_x3 * iso_x3 : ℕ) : ZMod secpN) :=
  cast_eq_of_mod (by decide +kernel)
theorem iso_eq_i9 : (((iso_y3 * iso_y3 : ℕ)) : ZMod secpN) = ((iso_x3 * iso_x3 * iso_x3 : ℕ) : ZMod secpN) :=
  cast_eq_of_mod (by decide +kernel)

/-- The isogenous curve `y² = x³ + A x + B`. -/
def isoG (x : ZMod secpN) : ZMod secpN := x ^ 3 + iso_A * x + iso_B

/-- `7` is not a square modulo `q`. -/
theorem seven_nonsq : ¬ IsSquare (7 : ZMod secpN) := by
  have h7 : (7 : ZMod secpN) ≠ 0 := by
    have : ((7 : ℕ) : ZMod secpN) ≠ 0 := by
      rw [Ne, ZMod.natCast_eq_zero_iff]
      intro h
      have := Nat.le_of_dvd (by norm_num) h
      revert this
      decide +kernel
    exact_mod_cast this
  rw [ZMod.euler_criterion secpN h7]
  have h : ((7 : ℕ) : ZMod secpN) ^ (secpN / 2) = ((secpN - 1 : ℕ) : ZMod secpN) :=
    cast_pow_of_powMod (k := 256) (by decide +kernel) (by decide +kernel)
  rw [pred_cast valid_Q] at h
  rw [show (7 : ZMod secpN) = ((7 : ℕ) : ZMod secpN) by norm_cast, h]
  intro hc
  have h2 : (2 : ZMod secpN) = 0 := by linear_combination -hc
  have : ((2 : ℕ) : ZMod secpN) = 0 := by exact_mod_cast h2
  rw [ZMod.natCast_eq_zero_iff] at this
  have := Nat.le_of_dvd (by norm_num) this
  revert this
  decide +kernel

/-- The pole of the isogeny is not the abscissa of a point of the isogenous curve. -/
theorem iso_pole {x y : ZMod secpN} (h : y ^ 2 = isoG x) : x + iso_c ≠ 0 := by
  intro hx
  apply seven_nonsq
  refine ⟨y, ?_⟩
  have e0 := iso_eq_g0
  push_cast at e0
  have hx' : x = -iso_c := eq_neg_of_add_eq_zero_left hx
  rw [← pow_two, h, isoG, hx', e0]
  ring

/-- The isogeny identity, after the shift to `z = x + c`. -/
theorem iso_identity (z : ZMod secpN) :
    (z ^ 3 + iso_g2 * z ^ 2 + iso_g1 * z + 7) * (iso_y3 * z ^ 3 + iso_y1 * z + iso_y0) ^ 2
      = (iso_x3 * z ^ 3 + iso_x2 * z ^ 2 + iso_x1 * z + iso_x0) ^ 3 + 7 * z ^ 6 := by
  have e0 := iso_eq_i0
  have e1 := iso_eq_i1
  have e2 := iso_eq_i2
  have e3 := iso_eq_i3
  have e4 := iso_eq_i4
  have e5 := iso_eq_i5
  have e6 := iso_eq_i6
  have e7 := iso_eq_i7
  have e8 := iso_eq_i8
  have e9 := iso_eq_i9
  push_cast at e0 e1 e2 e3 e4 e5 e6 e7 e8 e9
  linear_combination z ^ 0 * e0 + z ^ 1 * e1 + z ^ 2 * e2 + z ^ 3 * e3 + z ^ 4 * e4 + z ^ 5 * e5 + z ^ 6 * e6 + z ^ 7 * e7 + z ^ 8 * e8 + z ^ 9 * e9

/-- The numerators and denominators of the isogeny in terms of `z = x + c`. -/
theorem iso_shift (x : ZMod secpN) :
    isoG x = (x + iso_c) ^ 3 + iso_g2 * (x + iso_c) ^ 2 + iso_g1 * (x + iso_c) + 7 ∧
    iso_k0 * x ^ 3 + iso_k1 * x ^ 2 + iso_k2 * x + iso_k3
      = iso_x3 * (x + iso_c) ^ 3 + iso_x2 * (x + iso_c) ^ 2 + iso_x1 * (x + iso_c) + iso_x0 ∧
    iso_k6 * x ^ 3 + iso_k7 * x ^ 2 + iso_k8 * x + iso_k9
      = iso_y3 * (x + iso_c) ^ 3 + iso_y1 * (x + iso_c) + iso_y0 ∧
    x ^ 2 + iso_k4 * x + iso_k5 = (x + iso_c) ^ 2 ∧
    x ^ 3 + iso_k10 * x ^ 2 + iso_k11 * x + iso_k12 = (x + iso_c) ^ 3 := by
  have g2 := iso_eq_g2; have g1 := iso_eq_g1; have g0 := iso_eq_g0
  have xn3 := iso_eq_xn3; have xn2 := iso_eq_xn2; have xn1 := iso_eq_xn1; have xn0 := iso_eq_xn0
  have yn3 := iso_eq_yn3; have yn2 := iso_eq_yn2; have yn1 := iso_eq_yn1; have yn0 := iso_eq_yn0
  have d4 := iso_eq_d4; have d5 := iso_eq_d5; have d10 := iso_eq_d10; have d11 := iso_eq_d11
  have d12 := iso_eq_d12
  push_cast at g2 g1 g0 xn3 xn2 xn1 xn0 yn3 yn2 yn1 yn0 d4 d5 d10 d11 d12
  refine ⟨?_, ?_, ?_, ?_, ?_⟩
  · rw [isoG]
    linear_combination g0 - (x + iso_c) ^ 2 * g2 - (x + iso_c) * g1
  · linear_combination x ^ 3 * xn3 + x ^ 2 * xn2 + x * xn1 + xn0
  · linear_combination x ^ 3 * yn3 + x ^ 2 * yn2 + x * yn1 + yn0
  · linear_combination x * d4 + d5
  · linear_combination x ^ 2 * d10 + x * d11 + d12

/-- The isogeny maps points of `y² = x³ + A x + B` to points of `y² = x³ + 7`. -/
theorem iso_on_curve {x y : ZMod secpN} (h : y ^ 2 = isoG x) :
    (y * ((iso_k6 * x ^ 3 + iso_k7 * x ^ 2 + iso_k8 * x + iso_k9)
        * (x ^ 3 + iso_k10 * x ^ 2 + iso_k11 * x + iso_k12)⁻¹)) ^ 2
      = ((iso_k0 * x ^ 3 + iso_k1 * x ^ 2 + iso_k2 * x + iso_k3)
        * (x ^ 2 + iso_k4 * x + iso_k5)⁻¹) ^ 3 + 7 := by
  have hz := iso_pole h
  obtain ⟨s1, s2, s3, s4, s5⟩ := iso_shift x
  have hid := iso_identity (x + iso_c)
  rw [s2, s3, s4, s5]
  rw [← s1, ← h] at hid
  generalize (x + iso_c : ZMod secpN) = z at *
  generalize (iso_y3 * z ^ 3 + iso_y1 * z + iso_y0 : ZMod secpN) = yn at *
  generalize (iso_x3 * z ^ 3 + iso_x2 * z ^ 2 + iso_x1 * z + iso_x0 : ZMod secpN) = xn at *
  field_simp
  linear_combination hid

end MParams
end Spartan
