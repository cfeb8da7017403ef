import Verif.Props.Points

/-!
Property C123: the encodings of points and the map from bytes to points, on limbs.
-/

set_option exponentiation.threshold 2000

namespace Spartan

open MParams Spec Pt

theorem curveRhs_rep {l : Limbs} {x : ZMod secpN} (h : l.Rep secpN x) : (curveRhs l).Rep secpN (x ^ 3 + 7) := by
  have := rep_add valid_Q (rep_add valid_Q (rep_mul valid_Q (rep_mul valid_Q h h) h)
    (rep_mul valid_Q (rep_zero valid_Q) h)) curve_constants.1
  have e : x * x * x + 0 * x + 7 = x ^ 3 + 7 := by ring
  rwa [e] at this

theorem beValue_eq (bs : List UInt8) : beValue bs = leNat bs.reverse := by
  have : ∀ (bs : List UInt8) (n : Nat), bs.foldl (fun n b => 256 * n + b.toNat) n = leNat bs.reverse + 256 ^ bs.length * n := by
    intro bs
    induction bs with
    | nil => intro n; simp [leNat]
    | cons b bs ih =>
      intro n
      rw [List.foldl_cons, ih, List.reverse_cons, leNat_append, List.length_reverse, List.length_cons, pow_succ]
      simp only [leNat]
      ring
  have h := this bs 0
  rwa [Nat.mul_zero, Nat.add_zero] at h

theorem beValue_inj {a b : List UInt8} (hl : a.length = b.length) (h : beValue a = beValue b) : a = b := by
  rw [beValue_eq, beValue_eq] at h
  have h1 := leBytes_leNat a.reverse
  have h2 := leBytes_leNat b.reverse
  rw [h, List.length_reverse, hl] at h1
  rw [List.length_reverse] at h2
  exact List.reverse_injective (h1.symm.trans h2)

theorem fromSec1_cases {bs : List UInt8} (hl : bs.length = 32) :
    (beValue bs < secpN → ∃ l, paramsQ.fromSec1 bs = some l ∧ l.Rep secpN (beValue bs : ℕ)) ∧
      (¬ beValue bs < secpN → paramsQ.fromSec1 bs = none) := by
  obtain ⟨h1, h2⟩ := field_from_bytes .secq (bs := bs.reverse) (by rw [List.length_reverse, hl])
  rw [beValue_eq]
  unfold MParams.fromSec1
  refine ⟨fun h => ?_, fun h => ?_⟩
  · obtain ⟨a, ha⟩ := h1.2 h
    exact ⟨a, ha, (h2 a ha).1⟩
  · cases e : paramsQ.fromBytes bs.reverse with
    | none => rfl
    | some a => exact absurd (h1.1 ⟨a, e⟩) h

theorem beValue_toBeBytes {a : Limbs} {x : ZMod secpN} (ha : a.Rep secpN x) :
    (paramsQ.toBeBytes a).length = 32 ∧ beValue (paramsQ.toBeBytes a) = x.val := by
  rw [beValue_eq, toBeBytes_eq valid_Q ha, List.reverse_reverse, List.length_reverse, leBytes_length, leNat_leBytes]
  have := valid_Q.neZero
  exact ⟨rfl, Nat.mod_eq_of_lt (lt_of_lt_of_le (lt_trans (ZMod.val_lt x) valid_Q.lt) (by norm_num))⟩

/-- C123: `compress` writes the compressed encoding of the point. -/
theorem compress_correct {a : Aff} {P : Secq} (h : IsPoint a P) :
    IsCompressed (affCompress a) P ∧ affCompress a = secqCompress P := by
  unfold affCompress
  cases P with
  | zero => rw [if_pos h.1]; exact ⟨rfl, rfl⟩
  | some x y hns =>
    obtain ⟨h1, h2⟩ := beValue_toBeBytes h.2.1
    rw [if_neg (by rw [h.1]; exact Bool.false_ne_true), isOdd_eq valid_Q h.2.2]
    simp only [decide_eq_true_eq]
    refine ⟨⟨_, h1, h2, rfl⟩, ?_⟩
    rw [toBeBytes_eq valid_Q h.2.1]
    rfl

theorem decompressWith_eq {fr : List UInt8 → Option Limbs} {root : Limbs → Out (Option Limbs)} {X : List UInt8}
    {odd : Bool} : (fr X = none → decompressWith fr root X odd = .ok none) ∧
    ∀ l, fr X = some l → ∀ b, root l = .ok b → decompressWith fr root X odd = .ok (b.map (withParity l odd)) := by
  unfold decompressWith
  refine ⟨fun h => by rw [h], fun l h b hb => ?_⟩
  rw [h]
  simp only
  rw [hb]

theorem decodeWith_eq {fr : List UInt8 → Option Limbs} {dec : List UInt8 → Bool → Out (Option Aff)} {X Y : List UInt8} :
    (fr Y = none → decodeWith fr dec X Y = .ok none) ∧
    ∀ l, fr Y = some l → ∀ p, dec X (paramsQ.isOdd l) = .ok p →
      decodeWith fr dec X Y = .ok (p.filter fun p => p.y == l) := by
  unfold decodeWith
  refine ⟨fun h => by rw [h], fun l h b hb => ?_⟩
  rw [h]
  simp only
  rw [hb]

/-- One of a nonzero residue and its negative has the wanted parity. -/
theorem choose_parity {l b : Limbs} {r : ZMod secpN} (hb : b.Rep secpN r) (h0 : r ≠ 0) (odd : Bool) :
    (withParity l odd b).infinity = false ∧ (withParity l odd b).x = l ∧
    ∃ y, (withParity l odd b).y.Rep secpN y ∧ (y = r ∨ y = -r) ∧ odd = decide (y.val % 2 = 1) := by
  have ho := isOdd_eq valid_Q hb
  unfold withParity
  refine ⟨rfl, rfl, ?_⟩
  simp only
  generalize paramsQ.isOdd b = o at ho ⊢
  by_cases h : o = odd
  · rw [beq_iff_eq.mpr h, cond_true]
    exact ⟨r, hb, Or.inl rfl, by rw [← h, ho]⟩
  · rw [beq_eq_false_iff_ne.mpr h, cond_false]
    refine ⟨-r, rep_neg valid_Q hb, Or.inr rfl, ?_⟩
    have e : decide ((-r).val % 2 = 1) = !decide (r.val % 2 = 1) := by
      rw [decide_eq_decide.mpr (neg_parity h0), decide_not]
    rw [e, ← ho]
    cases o <;> cases odd <;> simp_all

/-- `decompress` of a first coordinate and a parity, for any function with the properties of the square root. -/
theorem decompressWith_ok {root : Limbs → Out (Option Limbs)}
    (hroot : ∀ {l : Limbs} {x : ZMod secpN}, l.Rep secpN x →
      (IsSquare (x ^ 3 + 7) → ∃ b r, root l = .ok (some b) ∧ b.Rep secpN r ∧ r ^ 2 = x ^ 3 + 7) ∧
        (¬ IsSquare (x ^ 3 + 7) → root l = .ok none))
    {X : List UInt8} (hl : X.length = 32) (odd : Bool) : ∃ r, decompressWith paramsQ.fromSec1 root X odd = .ok r ∧
    (∀ a, r = some a → ∃ x y h, IsPoint a (.some x y h) ∧ beValue X = x.val ∧ odd = decide (y.val % 2 = 1)) ∧
    (∀ x y, (koblitz (ZMod secpN)).Nonsingular x y → beValue X = x.val → odd = decide (y.val % 2 = 1) →
      ∃ a, r = some a) := by
  have := valid_Q.neZero
  obtain ⟨c1, c2⟩ := fromSec1_cases hl
  obtain ⟨w1, w2⟩ := decompressWith_eq (fr := paramsQ.fromSec1) (root := root) (X := X) (odd := odd)
  generalize decompressWith paramsQ.fromSec1 root X odd = res at w1 w2 ⊢
  generalize paramsQ.fromSec1 X = fx at w1 w2 c1 c2
  by_cases hv : beValue X < secpN
  · obtain ⟨l, e, hr⟩ := c1 hv
    have e2 := w2 l e
    have hval : ((beValue X : ℕ) : ZMod secpN).val = beValue X := ZMod.val_cast_of_lt hv
    generalize ((beValue X : ℕ) : ZMod secpN) = x at hr hval
    obtain ⟨s1, s2⟩ := hroot hr
    by_cases hsq : IsSquare (x ^ 3 + 7)
    · obtain ⟨b, r, e3, hb, hr2⟩ := s1 hsq
      refine ⟨_, e2 (some b) e3, fun a ha => ?_, fun _ _ _ _ _ => ⟨_, Option.map_some _ _⟩⟩
      rw [Option.map_some] at ha
      have hn : (koblitz (ZMod secpN)).Nonsingular x r := Koblitz.secq_nonsingular.mpr hr2
      obtain ⟨p1, p2, y, hy, hyr, ho⟩ := choose_parity (l := l) hb (secq_y_ne hn) odd
      rw [Option.some.inj ha] at p1 p2 hy
      have hn' : (koblitz (ZMod secpN)).Nonsingular x y := by
        rcases hyr with rfl | rfl
        · exact hn
        · exact Koblitz.secq_nonsingular.mpr (by rw [neg_sq]; exact hr2)
      exact ⟨x, y, hn', ⟨p1, by rw [p2]; exact hr, hy⟩, hval.symm, ho⟩
    · refine ⟨none, e2 none (s2 hsq), fun a h => by simp at h, fun x' y hn hx _ => absurd ?_ hsq⟩
      obtain rfl : x' = x := ZMod.val_injective _ (by rw [← hx, hval])
      exact ⟨y, by rw [← Koblitz.secq_nonsingular.mp hn, pow_two]⟩
  · refine ⟨none, w1 (c2 hv), fun a h => by simp at h, fun x y _ hx _ => absurd ?_ hv⟩
    rw [hx]
    exact ZMod.val_lt x

theorem decompressX_ok {X : List UInt8} (hl : X.length = 32) (odd : Bool) : ∃ r, decompressX X odd = .ok r ∧
    (∀ a, r = some a → ∃ x y h, IsPoint a (.some x y h) ∧ beValue X = x.val ∧ odd = decide (y.val % 2 = 1)) ∧
    (∀ x y, (koblitz (ZMod secpN)).Nonsingular x y → beValue X = x.val → odd = decide (y.val % 2 = 1) →
      ∃ a, r = some a) := by
  unfold decompressX
  exact decompressWith_ok (fun h => secq_sqrt (curveRhs_rep h)) hl odd

theorem decodeWith_ok {dec : List UInt8 → Bool → Out (Option Aff)} {X Y : List UInt8}
    (hdec : ∀ odd, ∃ r, dec X odd = .ok r ∧
      (∀ a, r = some a → ∃ x y h, IsPoint a (.some x y h) ∧ beValue X = x.val ∧ odd = decide (y.val % 2 = 1)) ∧
      (∀ x y, (koblitz (ZMod secpN)).Nonsingular x y → beValue X = x.val → odd = decide (y.val % 2 = 1) →
        ∃ a, r = some a))
    (hl' : Y.length = 32) : ∃ r, decodeWith paramsQ.fromSec1 dec X Y = .ok r ∧
    (∀ a, r = some a → ∃ x y h, IsPoint a (.some x y h) ∧ beValue X = x.val ∧ beValue Y = y.val) ∧
    (∀ x y, (koblitz (ZMod secpN)).Nonsingular x y → beValue X = x.val → beValue Y = y.val → ∃ a, r = some a) := by
  have := valid_Q.neZero
  obtain ⟨c1, c2⟩ := fromSec1_cases hl'
  obtain ⟨w1, w2⟩ := decodeWith_eq (fr := paramsQ.fromSec1) (dec := dec) (X := X) (Y := Y)
  generalize decodeWith paramsQ.fromSec1 dec X Y = res at w1 w2 ⊢
  generalize paramsQ.fromSec1 Y = fx at w1 w2 c1 c2
  by_cases hv : beValue Y < secpN
  · obtain ⟨l, e, hr⟩ := c1 hv
    have e2 := w2 l e
    have hval : ((beValue Y : ℕ) : ZMod secpN).val = beValue Y := ZMod.val_cast_of_lt hv
    generalize ((beValue Y : ℕ) : ZMod secpN) = y at hr hval
    have hol := isOdd_eq valid_Q hr
    generalize paramsQ.isOdd l = o at hol e2
    obtain ⟨r, e3, d1, d2⟩ := hdec o
    cases r with
    | none =>
      refine ⟨none, e2 none e3, fun a h => by simp at h, fun x y' hn hx hy => ?_⟩
      obtain rfl : y' = y := ZMod.val_injective _ (by rw [← hy, hval])
      obtain ⟨a, ha⟩ := d2 x y' hn hx hol
      simp at ha
    | some p =>
      refine ⟨_, e2 (some p) e3, fun a h => ?_, fun x y' hn hx hy => ?_⟩
      · obtain ⟨h1, h2⟩ := Option.filter_eq_some_iff.mp h
        obtain rfl := Option.some.inj h1
        have hp : p.y = l := by simpa using h2
        obtain ⟨x, y', hn, hpt, hx, -⟩ := d1 p rfl
        obtain rfl : y' = y := rep_unique valid_Q (hp ▸ hpt.2.2) hr
        exact ⟨x, y', hn, hpt, hx, hval.symm⟩
      · obtain rfl : y' = y := ZMod.val_injective _ (by rw [← hy, hval])
        obtain ⟨x2, y2, hn2, hpt, hx2, ho⟩ := d1 p rfl
        obtain rfl : x2 = x := ZMod.val_injective _ (by rw [← hx2, hx])
        have hyy : y2 = y' ∨ y2 = -y' := sq_eq_sq_iff_eq_or_eq_neg.mp
          ((Koblitz.secq_nonsingular.mp hn2).trans (Koblitz.secq_nonsingular.mp hn).symm)
        have hpar := neg_parity (secq_y_ne hn)
        obtain rfl : y2 = y' := by
          rcases hyy with h | h
          · exact h
          · rw [hol, h, decide_eq_decide] at ho
            exact absurd (ho.trans hpar) iff_not_self
        have hpl : p.y = l := rep_inj valid_Q hpt.2.2 hr
        exact ⟨p, Option.filter_eq_some_iff.mpr ⟨rfl, by simpa using hpl⟩⟩
  · refine ⟨none, w1 (c2 hv), fun a h => by simp at h, fun x y _ _ hy => absurd ?_ hv⟩
    rw [hy]
    exact ZMod.val_lt y

theorem decodeXY_ok {X Y : List UInt8} (hl : X.length = 32) (hl' : Y.length = 32) : ∃ r, decodeXY X Y = .ok r ∧
    (∀ a, r = some a → ∃ x y h, IsPoint a (.some x y h) ∧ beValue X = x.val ∧ beValue Y = y.val) ∧
    (∀ x y, (koblitz (ZMod secpN)).Nonsingular x y → beValue X = x.val → beValue Y = y.val → ∃ a, r = some a) := by
  unfold decodeXY
  exact decodeWith_ok (fun odd => decompressX_ok hl odd) hl'

theorem tag_odd (b : Prop) [Decidable b] : ((if b then (3 : UInt8) else 2) == 3) = decide b := by
  by_cases h : b
  · rw [if_pos h, decide_eq_true h]; rfl
  · rw [if_neg h, decide_eq_false h]; rfl

/-- No bytes encode two points. -/
theorem encoding_unique {bs : List UInt8} {P Q : Secq} (hP : IsCompressed bs P ∨ IsUncompressed bs P)
    (hQ : IsCompressed bs Q ∨ IsUncompressed bs Q) : P = Q := by
  have := valid_Q.neZero
  have hlen : ∀ {x y hn}, IsCompressed bs (.some x y hn) ∨ IsUncompressed bs (.some x y hn) →
      bs.length = 33 ∨ bs.length = 65 := by
    rintro x y hn (⟨X, h1, -, rfl⟩ | ⟨X, Y, h1, h2, -, -, rfl⟩)
    · exact Or.inl (by rw [List.length_cons, h1])
    · exact Or.inr (by rw [List.length_cons, List.length_append, h1, h2])
  have hzero : IsCompressed bs (.zero : Secq) ∨ IsUncompressed bs (.zero : Secq) → bs.length = 1 := by
    rintro (h | h)
    · rw [show bs = [0] from h]; rfl
    · rw [show bs = [0] from h]; rfl
  cases P with
  | zero =>
    cases Q with
    | zero => rfl
    | some x y hn =>
      have h1 := hzero hP
      have h2 := hlen hQ
      omega
  | some x y hn =>
    cases Q with
    | zero =>
      have h1 := hzero hQ
      have h2 := hlen hP
      omega
    | some x' y' hn' =>
      have key : x = x' ∧ y = y' := by
        rcases hP with ⟨X, h1, h2, e⟩ | ⟨X, Y, h1, h2, h3, h4, e⟩
        · rcases hQ with ⟨X', k1, k2, e'⟩ | ⟨X', Y', k1, k2, k3, k4, e'⟩
          · rw [e] at e'
            obtain ⟨et, rfl⟩ := List.cons.inj e'
            obtain rfl : x = x' := ZMod.val_injective _ (by rw [← h2, ← k2])
            have hyy : y = y' ∨ y = -y' := sq_eq_sq_iff_eq_or_eq_neg.mp
              ((Koblitz.secq_nonsingular.mp hn).trans (Koblitz.secq_nonsingular.mp hn').symm)
            refine ⟨rfl, ?_⟩
            rcases hyy with h | h
            · exact h
            · have hpar := neg_parity (secq_y_ne hn')
              have ho := tag_odd (y.val % 2 = 1)
              rw [et, tag_odd, decide_eq_decide, h] at ho
              exact absurd (ho.trans hpar) iff_not_self
          · rw [e] at e'
            obtain ⟨-, e'⟩ := List.cons.inj e'
            have := congrArg List.length e'
            rw [List.length_append] at this
            omega
        · rcases hQ with ⟨X', k1, k2, e'⟩ | ⟨X', Y', k1, k2, k3, k4, e'⟩
          · rw [e] at e'
            obtain ⟨-, e'⟩ := List.cons.inj e'
            have := congrArg List.length e'
            rw [List.length_append] at this
            omega
          · rw [e] at e'
            obtain ⟨-, e'⟩ := List.cons.inj e'
            obtain ⟨rfl, rfl⟩ := List.append_inj e' (by rw [h1, k1])
            exact ⟨ZMod.val_injective _ (by rw [← h3, ← k3]), ZMod.val_injective _ (by rw [← h4, ← k4])⟩
      obtain ⟨rfl, rfl⟩ := key
      rfl

/-- C123: `decompress` does not panic on any bytes.  It returns a point exactly for the encodings, compressed and
uncompressed, of the points of the curve, and then that point. -/
theorem decompress_correct (bs : List UInt8) : ∃ r, affDecompress bs = .ok r ∧
    (∀ a, r = some a → ∃ P, IsPoint a P ∧ (IsCompressed bs P ∨ IsUncompressed bs P)) ∧
    (∀ P, IsCompressed bs P ∨ IsUncompressed bs P → ∃ a, r = some a ∧ IsPoint a P) := by
  have h23 : (2 : UInt8) ≠ 3 := by decide
  have key : ∃ r, affDecompress bs = .ok r ∧
      (∀ a, r = some a → ∃ P, IsPoint a P ∧ (IsCompressed bs P ∨ IsUncompressed bs P)) ∧
      (∀ P, IsCompressed bs P ∨ IsUncompressed bs P → ∃ a, r = some a) := by
    unfold affDecompress
    cases bs with
    | nil =>
      refine ⟨none, rfl, fun a h => by simp at h, fun P h => ?_⟩
      cases P <;> simp [IsCompressed, IsUncompressed] at h
    | cons t rest =>
      simp only
      by_cases h0 : t = 0 ∧ rest = []
      · rw [if_pos h0]
        refine ⟨_, rfl, fun a h => ⟨0, ?_, Or.inl ?_⟩, fun _ _ => ⟨_, rfl⟩⟩
        · rw [← Option.some.inj h]; exact point_constants.1
        · rw [h0.1, h0.2]; rfl
      · rw [if_neg h0]
        by_cases h1 : (t = 2 ∨ t = 3) ∧ rest.length = 32
        · rw [if_pos h1]
          obtain ⟨r, e, d1, d2⟩ := decompressX_ok h1.2 (t == 3)
          refine ⟨r, e, fun a h => ?_, fun P h => ?_⟩
          · obtain ⟨x, y, hn, hp, hx, ho⟩ := d1 a h
            refine ⟨_, hp, Or.inl ⟨rest, h1.2, hx, ?_⟩⟩
            rcases h1.1 with rfl | rfl
            · rw [if_neg (of_decide_eq_false ho.symm)]
            · rw [if_pos (of_decide_eq_true ho.symm)]
          · cases P with
            | zero => simp only [IsCompressed, IsUncompressed, or_self] at h; simp at h; exact absurd h h0
            | some x y hn =>
              rcases h with ⟨X, -, hx, e'⟩ | ⟨X, Y, -, -, -, -, e'⟩
              · obtain ⟨rfl, rfl⟩ := List.cons.inj e'
                exact d2 x y hn hx (tag_odd _)
              · obtain ⟨rfl, -⟩ := List.cons.inj e'
                exact absurd h1.1 (by decide)
        · rw [if_neg h1]
          by_cases h2 : t = 4 ∧ rest.length = 64
          · rw [if_pos h2]
            obtain ⟨r, e, d1, d2⟩ := decodeXY_ok (X := rest.take 32) (Y := rest.drop 32)
              (by rw [List.length_take]; omega) (by rw [List.length_drop]; omega)
            refine ⟨r, e, fun a h => ?_, fun P h => ?_⟩
            · obtain ⟨x, y, hn, hp, hx, hy⟩ := d1 a h
              exact ⟨_, hp, Or.inr ⟨_, _, by rw [List.length_take]; omega, by rw [List.length_drop]; omega, hx, hy,
                by rw [List.take_append_drop, h2.1]⟩⟩
            · cases P with
              | zero => simp only [IsCompressed, IsUncompressed, or_self] at h; simp at h; exact absurd h h0
              | some x y hn =>
                rcases h with ⟨X, hX, hx, e'⟩ | ⟨X, Y, hX, hY, hx, hy, e'⟩
                · obtain ⟨-, rfl⟩ := List.cons.inj e'
                  omega
                · obtain ⟨-, rfl⟩ := List.cons.inj e'
                  rw [List.take_left' hX, List.drop_left' hX] at d2
                  exact d2 x y hn hx hy
          · rw [if_neg h2]
            refine ⟨none, rfl, fun a h => by simp at h, fun P h => ?_⟩
            cases P with
            | zero => simp only [IsCompressed, IsUncompressed, or_self] at h; simp at h; exact absurd h h0
            | some x y hn =>
              rcases h with ⟨X, hX, hx, e'⟩ | ⟨X, Y, hX, hY, hx, hy, e'⟩
              · obtain ⟨ht, rfl⟩ := List.cons.inj e'
                refine absurd ⟨?_, hX⟩ h1
                rw [ht]
                split_ifs
                · exact Or.inr rfl
                · exact Or.inl rfl
              · obtain ⟨ht, rfl⟩ := List.cons.inj e'
                exact absurd ⟨ht, by rw [List.length_append]; omega⟩ h2
  obtain ⟨r, e, h1, h2⟩ := key
  refine ⟨r, e, h1, fun P h => ?_⟩
  obtain ⟨a, ha⟩ := h2 P h
  obtain ⟨Q, hQ, henc⟩ := h1 a ha
  obtain rfl : P = Q := encoding_unique h henc
  exact ⟨a, ha, hQ⟩

/-- C123: compressing and decompressing returns the same value, and so does decompressing any accepted compressed
encoding and compressing the result. -/
theorem compress_round_trip :
    (∀ {a : Aff} {P : Secq}, IsPoint a P → affDecompress (affCompress a) = .ok (some a)) ∧
    (∀ {bs : List UInt8} {a : Aff}, affDecompress bs = .ok (some a) → bs.length ≤ 33 → affCompress a = bs) := by
  refine ⟨fun {a P} h => ?_, fun {bs a} h hl => ?_⟩
  · obtain ⟨r, e, -, h2⟩ := decompress_correct (affCompress a)
    obtain ⟨a', rfl, ha'⟩ := h2 P (Or.inl (compress_correct h).1)
    rw [e, (point_representation.2 ha' h).2 rfl]
  · obtain ⟨r, e, h1, -⟩ := decompress_correct bs
    rw [e] at h
    obtain ⟨P, hP, henc⟩ := h1 a (by injection h)
    have hc := (compress_correct hP).1
    generalize affCompress a = cs at hc ⊢
    cases P with
    | zero =>
      rw [show cs = [0] from hc]
      rcases henc with h | h
      · exact (show bs = [0] from h).symm
      · exact (show bs = [0] from h).symm
    | some x y hn =>
      rcases henc with ⟨X, l1, l2, rfl⟩ | ⟨X, Y, l1, l2, -, -, rfl⟩
      · obtain ⟨X', k1, k2, rfl⟩ := hc
        rw [beValue_inj (l1.trans k1.symm) (l2.trans k2.symm)]
      · rw [List.length_cons, List.length_append] at hl
        omega

/-- C123: `from_uniform_bytes` on limbs returns a representation of the point of the model (C98, C118) for every 128
bytes. -/
theorem uniform_point_correct (f : Formulas) {bytes : List UInt8} (hl : bytes.length = 128) :
    ∃ a P, uniformPoint f bytes = .ok a ∧ Shake.fromUniform bytes = .ok P ∧ IsPoint a P := by
  have hpt : ∀ (x y : ZMod secpN) (h : OnSecq x y), ∃ a, IsPoint a (secqPt x y h) := fun x y h => point_representation.1 _
  choose pt hpt using hpt
  have hd : DecodesSecq (fun x y => decoded (affDecompress (4 :: (x ++ y)))) pt := by
    intro lx ly x y h hx hy
    obtain ⟨r, e, -, h2⟩ := decompress_correct (4 :: (paramsQ.toBeBytes lx ++ paramsQ.toBeBytes ly))
    obtain ⟨b1, b2⟩ := beValue_toBeBytes hx
    obtain ⟨c1, c2⟩ := beValue_toBeBytes hy
    obtain ⟨a, rfl, ha⟩ := h2 (secqPt x y h) (Or.inr ⟨_, _, b1, c1, b2, c2, rfl⟩)
    simp only
    rw [e, (point_representation.2 ha (hpt x y h)).2 rfl]
    rfl
  obtain ⟨x1, y1, x2, y2, h1, h2, i1, i2, e⟩ := from_uniform_bytes_standard (add := affAdd f) hd hl
  obtain ⟨x1', y1', x2', y2', h1', h2', i1', i2', e'⟩ :=
    from_uniform_bytes_standard (add := (· + ·)) Shake.decode_uncompressed hl
  obtain ⟨_, _, _, _, u⟩ := stdImage_unique (leNat (bytes.take 64) : ℕ)
  obtain ⟨_, _, _, _, v⟩ := stdImage_unique (leNat (bytes.drop 64) : ℕ)
  obtain ⟨a, b⟩ := u _ _ i1
  obtain ⟨a', b'⟩ := u _ _ i1'
  obtain ⟨c, d⟩ := v _ _ i2
  obtain ⟨c', d'⟩ := v _ _ i2'
  subst a b a' b' c d c' d'
  exact ⟨_, _, e, e', (point_ops f (hpt _ _ h1) (hpt _ _ h2)).1⟩

/-- The hypotheses are met by the generator and by 128 zero bytes. -/
theorem point_codec_applies (f : Formulas) :
    affDecompress (affCompress affGenerator) = .ok (some affGenerator) ∧
    ∃ a, uniformPoint f (List.replicate 128 0) = .ok a := by
  obtain ⟨a, -, e, -⟩ := uniform_point_correct f (bytes := List.replicate 128 0) List.length_replicate
  exact ⟨compress_round_trip.1 point_constants.2.1, a, e⟩

/-- Every encoding that is accepted has a form that an `EncodedPoint` can hold.  The compact form (tag 5) is one that is
held and never accepted: `unpack` panics on it (C12). -/
theorem encoding_shapes :
    (∀ {bs : List UInt8} {P : Secq}, IsCompressed bs P ∨ IsUncompressed bs P → sec1Shape bs = true) ∧
    (∀ X : List UInt8, X.length = 32 → sec1Shape (5 :: X) = true ∧ affDecompress (5 :: X) = .ok none ∧
      unpackBytes (fun bs => decoded (affDecompress bs)) (5 :: X) = .error .panic) := by
  refine ⟨fun {bs P} h => ?_, fun X hX => ?_⟩
  · cases P with
    | zero =>
      have : bs = [0] := by
        rcases h with h | h
        · exact h
        · exact h
      rw [this]
      rfl
    | some x y hn =>
      rcases h with ⟨X, h1, -, rfl⟩ | ⟨X, Y, h1, h2, -, -, rfl⟩
      · split_ifs <;> simp [sec1Shape, h1]
      · simp [sec1Shape, h1, h2]
  · have e : affDecompress (5 :: X) = .ok none := by
      unfold affDecompress
      simp only
      rw [if_neg (fun h => absurd h.1 (by decide)), if_neg (fun h => absurd h.1 (by decide)),
        if_neg (fun h => absurd h.1 (by decide))]
    have hs : sec1Shape (5 :: X) = true := by simp [sec1Shape, hX]
    refine ⟨hs, e, (unpack_error_panics _ _ hs ?_).1⟩
    rw [e]
    rfl

end Spartan
