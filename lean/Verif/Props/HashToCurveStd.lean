import Verif.Lemmas.H2CStd
import Verif.Props.HashToCurve
import Verif.Props.Bias
import Verif.Props.Group

/-!
Property C98: hash-to-curve is the standard simplified SWU map followed by the isogeny, and no point is hit often.
-/

set_option exponentiation.threshold 2000

namespace Spartan

open MParams Spec

/-- `(X, Y)` is the standard image of the field element `u`: simplified SWU on the curve with the coefficients `iso_a` and
`iso_b` of the code and `Z = -14`, then the isogeny with the coefficients `iso_constants` of the code. -/
def StdImage (u X Y : ZMod secpN) : Prop :=
  ∃ (A B : ZMod secpN) (k : ℕ → ZMod secpN) (x y : ZMod secpN), isoA.Rep secpN A ∧ isoB.Rep secpN B ∧
    (∀ i < 13, (isoConstants.getD i zero).Rep secpN (k i)) ∧ IsSswu A B (-14) u x y ∧ IsIsoImage k x y X Y

theorem stdImage_iff (u X Y : ZMod secpN) : StdImage u X Y ↔ ∃ x y,
    IsSswu (iso_A : ZMod secpN) (iso_B : ZMod secpN) (-14) u x y ∧ IsIsoImage isoK x y X Y := by
  constructor
  · rintro ⟨A, B, k, x, y, hA, hB, hk, h, i⟩
    have eA := rep_unique valid_Q hA rep_isoA
    have eB := rep_unique valid_Q hB rep_isoB
    have ek : ∀ j < 13, k j = isoK j := fun j hj => rep_unique valid_Q (hk j hj) (isoConstants_rep j hj)
    rw [eA, eB] at h
    refine ⟨x, y, h, ⟨?_, ?_, ?_, ?_⟩⟩
    · rw [← ek 4 (by decide), ← ek 5 (by decide)]; exact i.den
    · rw [← ek 10 (by decide), ← ek 11 (by decide), ← ek 12 (by decide)]; exact i.den'
    · rw [← ek 0 (by decide), ← ek 1 (by decide), ← ek 2 (by decide), ← ek 3 (by decide), ← ek 4 (by decide),
        ← ek 5 (by decide)]
      exact i.abs
    · rw [← ek 6 (by decide), ← ek 7 (by decide), ← ek 8 (by decide), ← ek 9 (by decide), ← ek 10 (by decide),
        ← ek 11 (by decide), ← ek 12 (by decide)]
      exact i.ord
  · rintro ⟨x, y, h, i⟩
    exact ⟨_, _, _, x, y, rep_isoA, rep_isoB, isoConstants_rep, h, i⟩

/-- C98: the map of the code is the simplified SWU map of RFC 9380, with the sign of the ordinate chosen by the parity of
the field element. -/
theorem map_to_curve_standard {lu : Limbs} {u : ZMod secpN} (hu : lu.Rep secpN u) :
    ∃ lx ly x y A B, paramsQ.mapToCurve sqrtConstsQ paramsQ.invertQ lu isoA isoB isoZ = .ok (lx, ly) ∧
      lx.Rep secpN x ∧ ly.Rep secpN y ∧ isoA.Rep secpN A ∧ isoB.Rep secpN B ∧ IsSswu A B (-14) u x y := by
  obtain ⟨lx, ly, x, y, h, hx, hy, hs⟩ := mapToCurve_std hu
  exact ⟨lx, ly, x, y, _, _, h, hx, hy, rep_isoA, rep_isoB, hs⟩

/-- C98: `hash_to_curve` returns the standard images of its two field elements, in order. -/
theorem hash_to_curve_standard {l1 l2 : Limbs} {u1 u2 : ZMod secpN} (h1 : l1.Rep secpN u1) (h2 : l2.Rep secpN u2) :
    ∃ a b c d x1 y1 x2 y2, paramsQ.hashToCurve sqrtConstsQ paramsQ.invertQ l1 l2 isoA isoB isoZ
        isoConstants = .ok ((a, b), (c, d)) ∧
      a.Rep secpN x1 ∧ b.Rep secpN y1 ∧ OnSecq x1 y1 ∧ StdImage u1 x1 y1 ∧
      c.Rep secpN x2 ∧ d.Rep secpN y2 ∧ OnSecq x2 y2 ∧ StdImage u2 x2 y2 := by
  obtain ⟨q1x, q1y, _, _, e1, r1, s1, c1⟩ := mapToCurve_std h1
  obtain ⟨q2x, q2y, _, _, e2, r2, s2, c2⟩ := mapToCurve_std h2
  obtain ⟨a, b, x1, y1, e3, r3, s3, i3, c3⟩ := isoMap_std r1 s1 c1.on
  obtain ⟨c, d, x2, y2, e4, r4, s4, i4, c4⟩ := isoMap_std r2 s2 c2.on
  exact ⟨a, b, c, d, x1, y1, x2, y2, hashToCurve_ok e1 e2 e3 e4, r3, s3, c3, (stdImage_iff _ _ _).2 ⟨_, _, c1, i3⟩,
    r4, s4, c4, (stdImage_iff _ _ _).2 ⟨_, _, c2, i4⟩⟩

/-- Every field element has exactly one standard image, and it is a point of secq256k1. -/
theorem stdImage_unique (u : ZMod secpN) : ∃ X Y, OnSecq X Y ∧ StdImage u X Y ∧
    ∀ X' Y', StdImage u X' Y' → X' = X ∧ Y' = Y := by
  have hu : (paramsQ.fromBytesWide (leBytes 64 u.val)).Rep secpN u := by
    have h := rep_fromBytesWide valid_Q (bs := leBytes 64 u.val) (leBytes_length _ _)
    rw [leNat_leBytes, Nat.mod_eq_of_lt] at h
    · haveI := valid_Q.neZero
      rwa [ZMod.natCast_zmod_val] at h
    · haveI := valid_Q.neZero
      exact lt_trans (ZMod.val_lt u) (by decide +kernel)
  obtain ⟨_, _, _, _, X, Y, _, _, -, -, -, hc, hs, -⟩ := hash_to_curve_standard hu hu
  refine ⟨X, Y, hc, hs, fun X' Y' hs' => ?_⟩
  obtain ⟨x, y, h, i⟩ := (stdImage_iff _ _ _).1 hs
  obtain ⟨x', y', h', i'⟩ := (stdImage_iff _ _ _).1 hs'
  obtain ⟨rfl, rfl⟩ := sswu_unique (m := secpN) (by decide +kernel) h h'
  exact ⟨by rw [i.abs, i'.abs], by rw [i.ord, i'.ord]⟩

/-- C98: at most five field elements have a given standard image. -/
theorem stdImage_at_most_five (X Y : ZMod secpN) : Nat.card {u : ZMod secpN // StdImage u X Y} ≤ 5 := by
  classical
  haveI := valid_Q.neZero
  obtain ⟨S, hS, h⟩ := std_fibre X Y
  refine le_trans ?_ hS
  rw [Nat.card_eq_fintype_card, Fintype.card_subtype]
  refine Finset.card_le_card fun u hu => ?_
  obtain ⟨x, y, h1, h2⟩ := (stdImage_iff _ _ _).1 (by simpa using hu)
  exact h u x y h1 h2

/-- C98: the isogeny of the code loses nothing: different points of the isogenous curve have different images. -/
theorem iso_map_injective {lx ly lx' ly' : Limbs} {x y x' y' : ZMod secpN} (hx : lx.Rep secpN x) (hy : ly.Rep secpN y)
    (h : OnIso x y) (hx' : lx'.Rep secpN x') (hy' : ly'.Rep secpN y') (h' : OnIso x' y')
    (e : paramsQ.isoMap paramsQ.invertQ lx ly isoConstants = paramsQ.isoMap paramsQ.invertQ lx' ly' isoConstants) :
    lx = lx' ∧ ly = ly' := by
  obtain ⟨A, B, hA, hB, hc⟩ := h
  obtain ⟨A', B', hA', hB', hc'⟩ := h'
  rw [rep_unique valid_Q hA rep_isoA, rep_unique valid_Q hB rep_isoB] at hc
  rw [rep_unique valid_Q hA' rep_isoA, rep_unique valid_Q hB' rep_isoB] at hc'
  obtain ⟨a, b, X, Y, e1, ra, rb, i, -⟩ := isoMap_std hx hy hc
  obtain ⟨a', b', X', Y', e2, ra', rb', i', -⟩ := isoMap_std hx' hy' hc'
  rw [e1, e2] at e
  injection e with e
  injection e with ea eb
  subst ea eb
  obtain rfl := rep_unique valid_Q ra ra'
  obtain rfl := rep_unique valid_Q rb rb'
  obtain ⟨rfl, rfl⟩ := iso_inj hc hc' i i'
  exact ⟨(rep_iff_eq valid_Q hx hx').2 rfl, (rep_iff_eq valid_Q hy hy').2 rfl⟩

/-- C98: `from_uniform_bytes` is the sum of the standard images of the residues of the two halves. -/
theorem from_uniform_bytes_standard {P : Type} {decode : List UInt8 → List UInt8 → Option P}
    {add : P → P → P} {pt : (x y : ZMod secpN) → OnSecq x y → P} (hd : DecodesSecq decode pt)
    {bytes : List UInt8} (hl : bytes.length = 128) :
    ∃ x1 y1 x2 y2, ∃ (h1 : OnSecq x1 y1) (h2 : OnSecq x2 y2),
      StdImage (leNat (bytes.take 64) : ℕ) x1 y1 ∧ StdImage (leNat (bytes.drop 64) : ℕ) x2 y2 ∧
      fromUniformBytes decode add bytes = .ok (add (pt x1 y1 h1) (pt x2 y2 h2)) := by
  have r1 := rep_fromBytesWide valid_Q (bs := bytes.take 64) (by simp [hl])
  have r2 := rep_fromBytesWide valid_Q (bs := bytes.drop 64) (by simp [hl])
  obtain ⟨a, b, c, d, x1, y1, x2, y2, e, ha, hb, h1, i1, hc, hd', h2, i2⟩ := hash_to_curve_standard r1 r2
  exact ⟨x1, y1, x2, y2, h1, h2, i1, i2,
    fromUniformBytes_ok e (hd a b x1 y1 h1 ha hb) (hd c d x2 y2 h2 hc hd')⟩

/-- The number of 64-byte strings whose residue lies in a set. -/
theorem card_residue_set {m : ℕ} [NeZero m] (S : Finset (ZMod m)) :
    Nat.card {b : Bytes64 // ((leNat b.1 : ℕ) : ZMod m) ∈ S} ≤ S.card * (2 ^ 512 / m + 1) := by
  classical
  have : Fintype Bytes64 := Fintype.ofFinite _
  rw [Nat.card_eq_fintype_card, Fintype.card_subtype]
  rw [Finset.card_eq_sum_card_fiberwise (f := fun b : Bytes64 => ((leNat b.1 : ℕ) : ZMod m)) (t := S)]
  · rw [← smul_eq_mul]
    refine Finset.sum_le_card_nsmul _ _ _ fun x hx => ?_
    have h := bytes_residue 64 x
    rw [show (256 : ℕ) ^ 64 = 2 ^ 512 by norm_num, Nat.card_eq_fintype_card, Fintype.card_subtype] at h
    refine le_trans (Finset.card_le_card ?_) (h.le.trans ?_)
    · intro b hb
      simp only [Finset.mem_filter, Finset.mem_univ, true_and] at hb ⊢
      exact hb.2
    · apply Nat.add_le_add_left
      split_ifs
      · exact le_refl 1
      · exact Nat.zero_le 1
  · intro b hb
    simpa using hb

/-- C98: no point is the result of more than a `2⁻²⁵³` share of the 128-byte inputs. -/
theorem from_uniform_bytes_spread {P : Type} [AddGroup P] {decode : List UInt8 → List UInt8 → Option P}
    {pt : (x y : ZMod secpN) → OnSecq x y → P} (hd : DecodesSecq decode pt)
    (hinj : ∀ x y x' y' (h : OnSecq x y) (h' : OnSecq x' y'), pt x y h = pt x' y' h' → x = x' ∧ y = y') (R : P) :
    Nat.card {b : {b : List UInt8 // b.length = 128} // fromUniformBytes decode (· + ·) b.1 = .ok R} * 2 ^ 253 ≤
      2 ^ 1024 := by
  classical
  haveI := valid_Q.neZero
  have : Fintype Bytes64 := Fintype.ofFinite _
  -- one half
  choose fx fy fc fi funi using stdImage_unique
  let Q : Bytes64 → P := fun b => pt _ _ (fc (leNat b.1 : ℕ))
  obtain ⟨N, hN⟩ : ∃ N, N = 5 * (2 ^ 512 / secpN + 1) := ⟨_, rfl⟩
  have hQ : ∀ p : P, (Finset.univ.filter fun b : Bytes64 => Q b = p).card ≤ N := by
    rw [hN]
    intro p
    by_cases hp : ∃ b, Q b = p
    · obtain ⟨b0, rfl⟩ := hp
      obtain ⟨S, hS, h⟩ := std_fibre (fx (leNat b0.1 : ℕ)) (fy (leNat b0.1 : ℕ))
      refine le_trans (le_trans ?_ (card_residue_set S)) (Nat.mul_le_mul_right _ hS)
      rw [Nat.card_eq_fintype_card, Fintype.card_subtype]
      refine Finset.card_le_card fun b hb => ?_
      simp only [Finset.mem_filter, Finset.mem_univ, true_and] at hb ⊢
      obtain ⟨ex, ey⟩ := hinj _ _ _ _ _ _ hb
      obtain ⟨x, y, h1, h2⟩ := (stdImage_iff _ _ _).1 (fi (leNat b.1 : ℕ))
      rw [ex, ey] at h2
      exact h _ x y h1 h2
    · rw [Finset.filter_false_of_mem]
      · simp
      · intro b _ hb; exact hp ⟨b, hb⟩
  -- both halves
  have hsum : Nat.card {b : {b : List UInt8 // b.length = 128} // fromUniformBytes decode (· + ·) b.1 = .ok R} ≤
      2 ^ 512 * N := by
    have hval : ∀ b : {b : List UInt8 // b.length = 128}, fromUniformBytes decode (· + ·) b.1 =
        .ok (Q ⟨b.1.take 64, by simp [b.2]⟩ + Q ⟨b.1.drop 64, by simp [b.2]⟩) := by
      intro b
      obtain ⟨x1, y1, x2, y2, h1, h2, i1, i2, e⟩ := from_uniform_bytes_standard (add := (· + ·)) hd b.2
      rw [e]
      obtain ⟨rfl, rfl⟩ := funi _ _ _ i1
      obtain ⟨rfl, rfl⟩ := funi _ _ _ i2
      rfl
    have hle : Nat.card {b : {b : List UInt8 // b.length = 128} // fromUniformBytes decode (· + ·) b.1 = .ok R} ≤
        Nat.card {ab : Bytes64 × Bytes64 // Q ab.2 = -Q ab.1 + R} := by
      refine Nat.card_le_card_of_injective (fun b => ⟨(⟨b.1.1.take 64, by simp [b.1.2]⟩,
        ⟨b.1.1.drop 64, by simp [b.1.2]⟩), ?_⟩) ?_
      · have h := (hval b.1).symm.trans b.2
        injection h with h
        exact eq_neg_add_of_add_eq h
      · rintro ⟨⟨b, hb⟩, h⟩ ⟨⟨c, hc⟩, h'⟩ e
        simp only [Subtype.mk.injEq, Prod.mk.injEq] at e ⊢
        rw [← List.take_append_drop 64 b, e.1, e.2, List.take_append_drop]
    refine hle.trans ?_
    rw [Nat.card_eq_fintype_card, Fintype.card_subtype]
    rw [Finset.card_eq_sum_card_fiberwise (f := Prod.fst) (t := (Finset.univ : Finset Bytes64)) (fun _ _ => by simp)]
    have hc : (Finset.univ : Finset Bytes64).card = 2 ^ 512 := by
      rw [Finset.card_univ, ← Nat.card_eq_fintype_card, card_bytes64]
    rw [← hc, ← smul_eq_mul]
    refine Finset.sum_le_card_nsmul _ _ _ fun a _ => le_trans ?_ (hQ (-Q a + R))
    refine Finset.card_le_card_of_injOn Prod.snd ?_ ?_
    · rintro ⟨x, y⟩ hxy
      simp only [Finset.coe_filter, Finset.mem_filter, Finset.mem_univ, true_and, Set.mem_setOf_eq] at hxy ⊢
      rw [hxy.1, hxy.2]
    · rintro ⟨x, y⟩ hxy ⟨x', y'⟩ hxy' e
      simp only [Finset.coe_filter, Finset.mem_filter, Finset.mem_univ, true_and, Set.mem_setOf_eq] at hxy hxy' e
      rw [Prod.mk.injEq]
      exact ⟨hxy.2.trans hxy'.2.symm, e⟩
  refine (Nat.mul_le_mul_right _ hsum).trans ?_
  rw [hN]
  decide +kernel

/-- The point of secq256k1 with the given coordinates. -/
noncomputable def secqPt (x y : ZMod secpN) (h : OnSecq x y) : Secq :=
  .some x y ((Koblitz.nonsingular_iff (by
    have : ((2 : ℕ) : ZMod secpN) ≠ 0 := cast_ne_zero' (by decide +kernel)
    exact_mod_cast this) (by
    have : ((3 : ℕ) : ZMod secpN) ≠ 0 := cast_ne_zero' (by decide +kernel)
    exact_mod_cast this) (by
    have : ((7 : ℕ) : ZMod secpN) ≠ 0 := cast_ne_zero' (by decide +kernel)
    exact_mod_cast this)).2 h)

/-- The two results for the group of secq256k1 and any decoder that returns the point with the encoded coordinates. -/
theorem from_uniform_bytes_secq {decode : List UInt8 → List UInt8 → Option Secq} (hd : DecodesSecq decode secqPt) :
    (∀ bytes : List UInt8, bytes.length = 128 → ∃ R, fromUniformBytes decode (· + ·) bytes = .ok R) ∧
    ∀ R, Nat.card {b : {b : List UInt8 // b.length = 128} // fromUniformBytes decode (· + ·) b.1 = .ok R} * 2 ^ 253 ≤
      2 ^ 1024 := by
  constructor
  · intro bytes hl
    obtain ⟨_, _, _, _, _, _, _, _, e⟩ := from_uniform_bytes_standard (add := (· + ·)) hd hl
    exact ⟨_, e⟩
  · refine from_uniform_bytes_spread hd fun x y x' y' h h' e => ?_
    rw [secqPt, secqPt] at e
    injection e with e1 e2
    exact ⟨e1, e2⟩

/-- Such a decoder exists. -/
example : ∃ decode : List UInt8 → List UInt8 → Option Secq, DecodesSecq decode secqPt := by
  classical
  refine ⟨fun bx by' => if h : OnSecq (leNat bx.reverse : ℕ) (leNat by'.reverse : ℕ) then some (secqPt _ _ h) else none, ?_⟩
  intro lx ly x y h hx hy
  have e (l : Limbs) (z : ZMod secpN) (hz : l.Rep secpN z) :
      ((leNat (paramsQ.toBeBytes l).reverse : ℕ) : ZMod secpN) = z := by
    rw [toBeBytes_eq valid_Q hz, List.reverse_reverse, leNat_leBytes,
      Nat.mod_eq_of_lt (lt_of_lt_of_le (lt_trans (ZMod.val_lt z) valid_Q.lt) (by norm_num)),
      ZMod.natCast_zmod_val]
  simp only [e lx x hx, e ly y hy]
  rw [dif_pos h]

/-- Every field element has an image, and different ones can share it, but not more than five. -/
example : ∃ X Y, OnSecq X Y ∧ StdImage (5 : ZMod secpN) X Y := by
  obtain ⟨X, Y, h, i, -⟩ := stdImage_unique 5
  exact ⟨X, Y, h, i⟩

end Spartan
