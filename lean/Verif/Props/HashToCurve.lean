import Verif.Lemmas.H2C

/-!
Property C10: hash-to-curve is total and lands on the curve.
-/

set_option exponentiation.threshold 2000

namespace Spartan

open MParams

/-- Coordinates of a point of `y² = x³ + A x + B`, the curve isogenous to secq256k1
(`iso_a`, `iso_b`; both residues are given as the limbs of the code represent them). -/
def OnIso (x y : ZMod secpN) : Prop :=
  ∃ A B : ZMod secpN, isoA.Rep secpN A ∧ isoB.Rep secpN B ∧ y ^ 2 = x ^ 3 + A * x + B

/-- Coordinates of a point of secq256k1: `y² = x³ + 7` over the integers modulo `q`. -/
def OnSecq (x y : ZMod secpN) : Prop := y ^ 2 = x ^ 3 + 7

/-- The simplified SWU map never panics and lands on the isogenous curve, for every field
element. -/
theorem map_to_curve_total {lu : Limbs} {u : ZMod secpN} (hu : lu.Rep secpN u) :
    ∃ lx ly x y, paramsQ.mapToCurve sqrtConstsQ paramsQ.invertQ lu isoA isoB isoZ = .ok (lx, ly) ∧
      lx.Rep secpN x ∧ ly.Rep secpN y ∧ OnIso x y := by
  obtain ⟨lx, ly, x, y, h, hx, hy, hc⟩ := mapToCurve_spec hu
  exact ⟨lx, ly, x, y, h, hx, hy, _, _, rep_isoA, rep_isoB, hc⟩

/-- The isogeny never divides by zero on a point of the isogenous curve, and lands on secq256k1. -/
theorem iso_map_total {lx ly : Limbs} {x y : ZMod secpN} (hx : lx.Rep secpN x)
    (hy : ly.Rep secpN y) (h : OnIso x y) :
    ∃ lx' ly' x' y', paramsQ.isoMap paramsQ.invertQ lx ly isoConstants = .ok (lx', ly') ∧
      lx'.Rep secpN x' ∧ ly'.Rep secpN y' ∧ OnSecq x' y' := by
  obtain ⟨A, B, hA, hB, hc⟩ := h
  rw [rep_unique valid_Q hA rep_isoA, rep_unique valid_Q hB rep_isoB] at hc
  exact isoMap_spec hx hy hc

/-- `hash_to_curve` on any two field elements: two points of secq256k1, no panic. -/
theorem hash_to_curve_total {l1 l2 : Limbs} {u1 u2 : ZMod secpN} (h1 : l1.Rep secpN u1)
    (h2 : l2.Rep secpN u2) :
    ∃ a b c d x1 y1 x2 y2, paramsQ.hashToCurve sqrtConstsQ paramsQ.invertQ l1 l2 isoA isoB isoZ
        isoConstants = .ok ((a, b), (c, d)) ∧
      a.Rep secpN x1 ∧ b.Rep secpN y1 ∧ OnSecq x1 y1 ∧
      c.Rep secpN x2 ∧ d.Rep secpN y2 ∧ OnSecq x2 y2 := by
  obtain ⟨q1x, q1y, _, _, e1, r1, s1, c1⟩ := map_to_curve_total h1
  obtain ⟨q2x, q2y, _, _, e2, r2, s2, c2⟩ := map_to_curve_total h2
  obtain ⟨a, b, x1, y1, e3, r3, s3, c3⟩ := iso_map_total r1 s1 c1
  obtain ⟨c, d, x2, y2, e4, r4, s4, c4⟩ := iso_map_total r2 s2 c2
  refine ⟨a, b, c, d, x1, y1, x2, y2, ?_, r3, s3, c3, r4, s4, c4⟩
  exact hashToCurve_ok e1 e2 e3 e4

/-- What the SEC1 decoder of the `primeorder` crate is assumed to do with two 32-byte big-endian
coordinates of a curve point: return that point. -/
def DecodesSecq {P : Type} (decode : List UInt8 → List UInt8 → Option P)
    (pt : (x y : ZMod secpN) → OnSecq x y → P) : Prop :=
  ∀ (lx ly : Limbs) (x y : ZMod secpN) (h : OnSecq x y), lx.Rep secpN x → ly.Rep secpN y →
    decode (paramsQ.toBeBytes lx) (paramsQ.toBeBytes ly) = some (pt x y h)

/-- C10: for every 128-byte input `from_uniform_bytes` does not panic and returns the sum of two
points of secq256k1. -/
theorem from_uniform_bytes_total {P : Type} {decode : List UInt8 → List UInt8 → Option P}
    {add : P → P → P} {pt : (x y : ZMod secpN) → OnSecq x y → P} (hd : DecodesSecq decode pt)
    {bytes : List UInt8} (hl : bytes.length = 128) :
    ∃ x1 y1 x2 y2, ∃ (h1 : OnSecq x1 y1) (h2 : OnSecq x2 y2),
      fromUniformBytes decode add bytes = .ok (add (pt x1 y1 h1) (pt x2 y2 h2)) := by
  have r1 := rep_fromBytesWide valid_Q (bs := bytes.take 64) (by simp [hl])
  have r2 := rep_fromBytesWide valid_Q (bs := bytes.drop 64) (by simp [hl])
  obtain ⟨a, b, c, d, x1, y1, x2, y2, e, ha, hb, h1, hc, hd', h2⟩ := hash_to_curve_total r1 r2
  refine ⟨x1, y1, x2, y2, h1, h2, ?_⟩
  exact fromUniformBytes_ok e (hd a b x1 y1 h1 ha hb) (hd c d x2 y2 h2 hc hd')

/-- The two field elements are the residues of the two 64-byte halves, so inputs with the same
residues give the same point: the map factors through a pair of field elements. -/
theorem from_uniform_bytes_residues {P : Type} (decode : List UInt8 → List UInt8 → Option P)
    (add : P → P → P) {b c : List UInt8} (hb : b.length = 128) (hc : c.length = 128)
    (h1 : leNat (b.take 64) % secpN = leNat (c.take 64) % secpN)
    (h2 : leNat (b.drop 64) % secpN = leNat (c.drop 64) % secpN) :
    fromUniformBytes decode add b = fromUniformBytes decode add c := by
  have e1 : paramsQ.fromBytesWide (b.take 64) = paramsQ.fromBytesWide (c.take 64) := by
    have r1 := rep_fromBytesWide valid_Q (bs := b.take 64) (by simp [hb])
    have r2 := rep_fromBytesWide valid_Q (bs := c.take 64) (by simp [hc])
    rwa [rep_iff_eq valid_Q r1 r2, ZMod.natCast_eq_natCast_iff']
  have e2 : paramsQ.fromBytesWide (b.drop 64) = paramsQ.fromBytesWide (c.drop 64) := by
    have r1 := rep_fromBytesWide valid_Q (bs := b.drop 64) (by simp [hb])
    have r2 := rep_fromBytesWide valid_Q (bs := c.drop 64) (by simp [hc])
    rwa [rep_iff_eq valid_Q r1 r2, ZMod.natCast_eq_natCast_iff']
  exact fromUniformBytes_congr e1 e2

/-- A decoder that reads the coordinates back satisfies the assumption. -/
example : ∃ (decode : List UInt8 → List UInt8 → Option (ZMod secpN × ZMod secpN)),
    DecodesSecq decode (fun x y _ => (x, y)) := by
  refine ⟨fun bx by' => some ((leNat bx.reverse : ZMod secpN), (leNat by'.reverse : ZMod secpN)), ?_⟩
  intro lx ly x y _ hx hy
  have e (l : Limbs) (z : ZMod secpN) (hz : l.Rep secpN z) :
      (leNat (paramsQ.toBeBytes l).reverse : ZMod secpN) = z := by
    rw [toBeBytes_eq valid_Q hz, List.reverse_reverse, leNat_leBytes,
      Nat.mod_eq_of_lt (lt_of_lt_of_le (lt_trans (ZMod.val_lt z) valid_Q.lt) (by norm_num)),
      ZMod.natCast_zmod_val]
  simp only [e lx x hx, e ly y hy]

/-- Non-vacuity: the exceptional case `u = 0` of the map. -/
example : ∃ lx ly x y, paramsQ.mapToCurve sqrtConstsQ paramsQ.invertQ zero isoA isoB isoZ
    = .ok (lx, ly) ∧ lx.Rep secpN x ∧ ly.Rep secpN y ∧ OnIso x y :=
  map_to_curve_total (rep_zero valid_Q)

end Spartan
