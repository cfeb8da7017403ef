import Verif.Lemmas.Points
import Verif.Lemmas.Multiexp
import Verif.Props.SqrtQ
import Verif.Props.GensStd

/-!
Properties C121 and C122: the point arithmetic below `GroupElement`.

The theorems are about values of `AffinePoint` and the points of the curve they stand for (`Spec.IsPoint`); the group is
Mathlib's group of points of `y² = x³ + 7`.  They hold for both sets of complete formulas.
-/

set_option exponentiation.threshold 2000

namespace Spartan

open MParams Spec Pt

/-- A bound. -/
theorem secpP_small : secpP < 2 ^ 256 := by decide +kernel

attribute [local irreducible] secpP decompressScalar toAffine fromAffine mulPoint multiexp projOps Formulas.add Formulas.double

/-! ### C121: the operations of `AffinePoint` and `GroupElement` -/

/-- Every point of the curve has a representation, and only one: the derived equality of `AffinePoint` is equality of
points. -/
theorem point_representation :
    (∀ P : Secq, ∃ a, IsPoint a P) ∧
      (∀ {a b : Aff} {P Q : Secq}, IsPoint a P → IsPoint b Q → (a = b ↔ P = Q)) := by
  refine ⟨fun P => ?_, fun {a b P Q} ha hb => ?_⟩
  · cases P with
    | zero => exact ⟨⟨MParams.zero, MParams.zero, true⟩, rfl, rep_zero valid_Q, rep_zero valid_Q⟩
    | some x y h =>
      obtain ⟨lx, hx, -⟩ := (field_rep_bijective .secq).2 x
      obtain ⟨ly, hy, -⟩ := (field_rep_bijective .secq).2 y
      exact ⟨⟨lx, ly, false⟩, rfl, hx, hy⟩
  · obtain ⟨ax, ay, ai⟩ := a
    obtain ⟨bx, bY, bi⟩ := b
    cases P with
    | zero =>
      obtain ⟨h1, h2, h3⟩ := ha
      cases Q with
      | zero =>
        obtain ⟨k1, k2, k3⟩ := hb
        simp only at h1 h2 h3 k1 k2 k3
        rw [h1, k1, rep_inj valid_Q h2 k2, rep_inj valid_Q h3 k3]
        simp
      | some x y h =>
        obtain ⟨k1, k2, k3⟩ := hb
        simp only at h1 k1
        rw [h1, k1]
        simp
    | some x y h =>
      obtain ⟨h1, h2, h3⟩ := ha
      cases Q with
      | zero =>
        obtain ⟨k1, k2, k3⟩ := hb
        simp only at h1 k1
        rw [h1, k1]
        simp
      | some x' y' h' =>
        obtain ⟨k1, k2, k3⟩ := hb
        simp only at h1 h2 h3 k1 k2 k3
        rw [h1, k1, Aff.mk.injEq, rep_iff_eq valid_Q h2 k2, rep_iff_eq valid_Q h3 k3,
          WeierstrassCurve.Affine.Point.some.injEq]
        simp

/-- C121: `identity()` is the neutral element, `generator()` is a point of order `p`. -/
theorem point_constants : IsPoint affIdentity 0 ∧ IsPoint affGenerator Shake.generator ∧
    addOrderOf Shake.generator = secpP := by
  refine ⟨⟨rfl, rep_zero valid_Q, rep_zero valid_Q⟩, ⟨rfl, ?_, ?_⟩, ?_⟩
  · exact rep_const (by decide +kernel)
  · exact rep_const (by decide +kernel)
  · exact addOrderOf_eq_prime Koblitz.secqG_order (WeierstrassCurve.Affine.Point.some_ne_zero _)

/-- C121: `+`, `-`, unary `-` and `double` of `AffinePoint` are those of the group, for all pairs of points: equal ones,
opposite ones and the identity included. -/
theorem point_ops (f : Formulas) {a b : Aff} {P Q : Secq} (ha : IsPoint a P) (hb : IsPoint b Q) :
    IsPoint (affAdd f a b) (P + Q) ∧ IsPoint (affSub f a b) (P - Q) ∧ IsPoint (affNeg a) (-P) ∧
      IsPoint (affDouble f a) (P + P) :=
  ⟨IsPoint.ofProj ((LRep.ofAffine ha).add f (LRep.ofAffine hb)),
    IsPoint.ofProj ((LRep.ofAffine ha).subAffine f hb), IsPoint.negCore ha,
    IsPoint.ofProj ((LRep.ofAffine ha).add f (LRep.ofAffine ha))⟩

/-- The operations of `ProjectivePoint` are those of the group. -/
theorem projOps_rel (f : Formulas) : GRel LRep (projOps f) := by
  unfold projOps
  exact ⟨LRep.identity, fun hp hq => hp.add f hq, fun hp => hp.double f⟩

/-- C121: multiplication of a point by an integer, and `GroupElement * Scalar`, which is multiplication by the residue
that the `Scalar` represents. -/
theorem point_mul (f : Formulas) {a : Aff} {P : Secq} (ha : IsPoint a P) :
    (∀ k < 2 ^ 256, IsPoint (affMul f a k) (k • P)) ∧
      (∀ {s : Limbs} {x : ZMod secpP}, s.Rep secpP x → IsPoint (groupMul f a s) (x • P)) := by
  have h1 : ∀ k < 2 ^ 256, IsPoint (affMul f a k) (k • P) := fun k hk => by
    unfold affMul
    exact IsPoint.ofProj (mulPoint_ok (projOps_rel f) (LRep.ofAffine ha) hk)
  refine ⟨h1, fun {s x} hs => ?_⟩
  obtain ⟨e1, e2⟩ := scalar_mul_correct hs P
  have := valid_P.neZero
  unfold groupMul
  generalize decompressScalar s = k at e1 e2 ⊢
  rw [← e2]
  exact h1 k (by rw [e1]; exact lt_trans (ZMod.val_lt x) secpP_small)

/-- C121: `Sum` is the sum. -/
theorem point_sum (f : Formulas) {l : List Aff} {Ps : List Secq} (h : List.Forall₂ IsPoint l Ps) :
    IsPoint (affSum f l) Ps.sum := by
  have : ∀ (a : Aff) (P : Secq), IsPoint a P → IsPoint (l.foldl (affAdd f) a) (P + Ps.sum) := by
    induction h with
    | nil => intro a P ha; simpa using ha
    | cons h1 _ ih =>
      intro a P ha
      rw [List.foldl_cons, List.sum_cons, ← add_assoc]
      exact ih _ _ (point_ops f ha h1).1
  have h := this _ _ point_constants.1
  rwa [zero_add] at h

/-- So the code's `+` is associative and commutative on representations of points, with the identity as neutral element,
and `p` times a point is the identity. -/
theorem point_laws (f : Formulas) {a b c : Aff} {P Q R : Secq} (ha : IsPoint a P) (hb : IsPoint b Q) (hc : IsPoint c R) :
    affAdd f (affAdd f a b) c = affAdd f a (affAdd f b c) ∧ affAdd f a b = affAdd f b a ∧
      affAdd f a affIdentity = a ∧ affAdd f a (affNeg a) = affIdentity ∧ affMul f a secpP = affIdentity := by
  have key := @point_representation.2
  refine ⟨?_, ?_, ?_, ?_, ?_⟩
  · exact (key (point_ops f (point_ops f ha hb).1 hc).1 (point_ops f ha (point_ops f hb hc).1).1).2 (add_assoc _ _ _)
  · exact (key (point_ops f ha hb).1 (point_ops f hb ha).1).2 (add_comm _ _)
  · exact (key (point_ops f ha point_constants.1).1 ha).2 (add_zero _)
  · exact (key (point_ops f ha (point_ops f ha ha).2.2.1).1 point_constants.1).2 (add_neg_cancel _)
  · have h := (point_mul f ha).1 secpP secpP_small
    rw [curve_annihilated.1 P] at h
    exact (key h point_constants.1).2 rfl

/-- The hypotheses are met by the generator, its negative and the identity, three different points. -/
theorem point_ops_applies (f : Formulas) : IsPoint affGenerator Shake.generator ∧
    IsPoint (affNeg affGenerator) (-Shake.generator) ∧ affGenerator ≠ affIdentity ∧
    affGenerator ≠ affNeg affGenerator ∧ affAdd f affGenerator (affNeg affGenerator) = affIdentity := by
  have hg := point_constants.2.1
  refine ⟨hg, (point_ops f hg hg).2.2.1, by decide +kernel, by decide +kernel, (point_laws f hg hg hg).2.2.2.1⟩

/-! ### C122: `vartime_multiscalar_mul` -/

/-- The pairs that `vartime_multiscalar_mul` hands over. -/
theorem msm_pairs {ss : List Limbs} {xs : List (ZMod secpP)} (hs : List.Forall₂ (Limbs.Rep secpP) ss xs)
    {ps : List (Proj Limbs)} {Ps : List Secq} (hp : List.Forall₂ LRep ps Ps) : ∀ n, xs.length + n ≤ Ps.length →
    ∃ pairs l, ((ss.zipIdx n).mapM fun si => do
        let p ← idx ps si.2
        pure (decompressScalar si.1, p)) = .ok pairs ∧ Pairs LRep pairs l ∧
      sumOf l = (List.zipWith (· • ·) xs (Ps.drop n)).sum := by
  have hd : ∀ (s : Limbs) (x : ZMod secpP), s.Rep secpP x →
      decompressScalar s < 2 ^ 256 ∧ ∀ P : Secq, decompressScalar s • P = x • P := fun s x h => by
    have := valid_P.neZero
    refine ⟨?_, fun P => (scalar_mul_correct h P).2⟩
    rw [(scalar_mul_correct h 0).1]
    exact lt_trans (ZMod.val_lt x) secpP_small
  generalize decompressScalar = d at hd ⊢
  induction hs with
  | nil =>
    intro n _
    exact ⟨[], [], rfl, List.Forall₂.nil, by simp [sumOf]⟩
  | @cons s x ss xs h1 _ ih =>
    intro n hn
    rw [List.length_cons] at hn
    obtain ⟨pairs, l, e, hpl, hsum⟩ := ih (n + 1) (by omega)
    have hlen : ps.length = Ps.length := hp.length_eq
    obtain ⟨p, P, e1, e2, hpP⟩ : ∃ p P, ps[n]? = some p ∧ Ps[n]? = some P ∧ LRep p P :=
      ⟨_, _, List.getElem?_eq_getElem (by omega), List.getElem?_eq_getElem (by omega), hp.get (by omega) (by omega)⟩
    have hps : idx ps n = .ok p := by
      unfold idx
      rw [e1]
    have hdrop : Ps.drop n = P :: Ps.drop (n + 1) := by
      rw [List.drop_eq_getElem_cons (by omega)]
      congr 1
      rw [List.getElem?_eq_getElem (by omega)] at e2
      exact Option.some.inj e2
    obtain ⟨d1, d2⟩ := hd s x h1
    refine ⟨(d s, p) :: pairs, (d s, P) :: l, ?_, List.Forall₂.cons ⟨rfl, hpP, d1⟩ hpl, ?_⟩
    · rw [List.zipIdx_cons, List.mapM_cons, hps, ok_bind, e]
      rfl
    · rw [hdrop, List.zipWith_cons_cons, List.sum_cons, ← hsum, ← d2]
      unfold sumOf
      rw [List.map_cons, List.sum_cons]

theorem msm_panics {ps : List (Proj Limbs)} : ∀ (ss : List Limbs) (n : Nat), ss ≠ [] → ps.length < ss.length + n →
    n ≤ ps.length → ((ss.zipIdx n).mapM fun si => do
        let p ← idx ps si.2
        pure (decompressScalar si.1, p)) = .error .panic := by
  intro ss
  induction ss with
  | nil => intro n h; exact absurd rfl h
  | cons s ss ih =>
    intro n _ h1 h2
    rw [List.zipIdx_cons, List.mapM_cons]
    rcases Nat.lt_or_ge n ps.length with hn | hn
    · have e : idx ps n = .ok (ps[n]'hn) := by
        unfold idx
        rw [List.getElem?_eq_getElem hn]
      have hne : ss ≠ [] := by
        rintro rfl
        simp at h1
        omega
      rw [e, ok_bind, ih (n + 1) hne (by rw [List.length_cons] at h1; omega) (by omega)]
      rfl
    · have e : idx ps n = .error .panic := by
        unfold idx
        rw [List.getElem?_eq_none hn]
      rw [e]
      rfl

/-- C122: with at least as many points as scalars the result is the sum of the multiples, whichever algorithm runs
(`debug` is the build's choice of thresholds); surplus points are ignored; with fewer points it panics. -/
theorem multiscalar_mul_correct (f : Formulas) (debug : Bool) {ss : List Limbs} {xs : List (ZMod secpP)}
    (hs : List.Forall₂ (Limbs.Rep secpP) ss xs) {as : List Aff} {Ps : List Secq} (ha : List.Forall₂ IsPoint as Ps) :
    (xs.length ≤ Ps.length → ∃ a, vartimeMsm f debug ss as = .ok a ∧
        IsPoint a (List.zipWith (· • ·) xs Ps).sum) ∧
      (Ps.length < xs.length → vartimeMsm f debug ss as = .error .panic) := by
  have hp : List.Forall₂ LRep (as.map fromAffine) Ps := by
    rw [List.forall₂_map_left_iff]
    exact ha.imp fun _ _ h => LRep.ofAffine h
  constructor
  · intro h
    obtain ⟨pairs, l, e, hpl, hsum⟩ := msm_pairs hs hp 0 (by omega)
    rw [List.drop_zero] at hsum
    obtain ⟨r, e2, hr⟩ := multiexp_ok (projOps_rel f) debug hpl
    refine ⟨toAffine r, ?_, by rw [← hsum]; exact IsPoint.ofProj hr⟩
    unfold vartimeMsm
    simp only
    rw [e, ok_bind, e2]
    rfl
  · intro h
    unfold vartimeMsm
    simp only
    have hl1 := hs.length_eq
    have hl2 := hp.length_eq
    rw [msm_panics ss 0 (by rintro rfl; simp at hl1; omega) (by omega) (by omega)]
    rfl

theorem msm_zipWith {xs : List (ZMod secpP)} : ∀ {Ps : List Secq},
    (xs.length ≤ Ps.length → msm xs Ps = .ok (List.zipWith (· • ·) xs Ps).sum) ∧
      (Ps.length < xs.length → msm xs Ps = .error .panic) := by
  induction xs with
  | nil => intro Ps; exact ⟨fun _ => rfl, fun h => absurd h (Nat.not_lt_zero _)⟩
  | cons x xs ih =>
    intro Ps
    cases Ps with
    | nil => exact ⟨fun h => absurd h (by simp), fun _ => rfl⟩
    | cons P Ps =>
      rw [msm]
      refine ⟨fun h => ?_, fun h => ?_⟩
      · rw [(ih (Ps := Ps)).1 (by simpa using h)]
        rfl
      · rw [(ih (Ps := Ps)).2 (by simpa using h)]

/-- C122: the abstract `msm` of the protocol model is what the code computes. -/
theorem multiscalar_mul_refines (f : Formulas) (debug : Bool) {ss : List Limbs} {xs : List (ZMod secpP)}
    (hs : List.Forall₂ (Limbs.Rep secpP) ss xs) {as : List Aff} {Ps : List Secq} (ha : List.Forall₂ IsPoint as Ps) :
    (∀ P, msm xs Ps = .ok P → ∃ a, vartimeMsm f debug ss as = .ok a ∧ IsPoint a P) ∧
      (∀ e, msm xs Ps = .error e → vartimeMsm f debug ss as = .error e) := by
  obtain ⟨h1, h2⟩ := multiscalar_mul_correct f debug hs ha
  obtain ⟨k1, k2⟩ := msm_zipWith (xs := xs) (Ps := Ps)
  rcases Nat.lt_or_ge Ps.length xs.length with h | h
  · rw [k2 h, h2 h]
    exact ⟨fun P h => by simp at h, fun e h => by simpa using h⟩
  · rw [k1 h]
    exact ⟨fun P e => by injection e with e; exact e ▸ h1 h, fun e h => by simp at h⟩

/-- The hypotheses are met by one scalar 2 and the generator with a surplus point; the result is twice the generator. -/
theorem multiscalar_mul_applies (f : Formulas) (debug : Bool) :
    ∃ a, vartimeMsm f debug [paramsP.fromU64 2] [affGenerator, affIdentity] = .ok a ∧
      IsPoint a ((2 : ℕ) • Shake.generator) := by
  have hs : List.Forall₂ (Limbs.Rep secpP) [paramsP.fromU64 2] [((2 : ℕ) : ZMod secpP)] :=
    .cons (rep_fromU64 valid_P 2) .nil
  have ha : List.Forall₂ IsPoint [affGenerator, affIdentity] [Shake.generator, 0] :=
    .cons point_constants.2.1 (.cons point_constants.1 .nil)
  obtain ⟨a, e, h⟩ := (multiscalar_mul_correct f debug hs ha).1 (by simp)
  refine ⟨a, e, ?_⟩
  simp only [List.zipWith_cons_cons, List.zipWith_nil_left, List.sum_cons, List.sum_nil, add_zero] at h
  rwa [secq_smul_nat] at h

end Spartan
