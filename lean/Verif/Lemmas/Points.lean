import Verif.Spec.PointRep
import Verif.Lemmas.RCB
import Verif.Lemmas.FieldOps
import Verif.Props.Group

/-!
The formulas on limbs compute the group law.
-/

namespace Spartan.Pt

/-- Operations that correspond. -/
structure OpsRel {α β : Type} (R : α → β → Prop) (o : FOps α) (o' : FOps β) : Prop where
  add : ∀ {a b a' b'}, R a a' → R b b' → R (o.add a b) (o'.add a' b')
  sub : ∀ {a b a' b'}, R a a' → R b b' → R (o.sub a b) (o'.sub a' b')
  mul : ∀ {a b a' b'}, R a a' → R b b' → R (o.mul a b) (o'.mul a' b')
  a : R o.a o'.a
  b3 : R o.b3 o'.b3

/-- Coordinates that correspond. -/
def PRel {α β : Type} (R : α → β → Prop) (p : Proj α) (p' : Proj β) : Prop := R p.x p'.x ∧ R p.y p'.y ∧ R p.z p'.z

section rel
variable {α β : Type} {R : α → β → Prop} {o : FOps α} {o' : FOps β}

local macro "walk" h:term : tactic =>
  `(tactic| repeat' (first | assumption | apply ($h).mul | apply ($h).add | apply ($h).sub | exact ($h).a | exact ($h).b3))

theorem addAny_rel (h : OpsRel R o o') {p q : Proj α} {p' q' : Proj β} (hp : PRel R p p') (hq : PRel R q q') :
    PRel R (addAny o p q) (addAny o' p' q') := by
  obtain ⟨p1, p2, p3⟩ := hp
  obtain ⟨q1, q2, q3⟩ := hq
  refine ⟨?_, ?_, ?_⟩ <;> simp only [addAny] <;> walk h

theorem addZero_rel (h : OpsRel R o o') {p q : Proj α} {p' q' : Proj β} (hp : PRel R p p') (hq : PRel R q q') :
    PRel R (addZero o p q) (addZero o' p' q') := by
  obtain ⟨p1, p2, p3⟩ := hp
  obtain ⟨q1, q2, q3⟩ := hq
  refine ⟨?_, ?_, ?_⟩ <;> simp only [addZero] <;> walk h

theorem mixedAny_rel (h : OpsRel R o o') {p : Proj α} {p' : Proj β} {x y : α} {x' y' : β} (hp : PRel R p p')
    (hx : R x x') (hy : R y y') : PRel R (mixedAny o p x y) (mixedAny o' p' x' y') := by
  obtain ⟨p1, p2, p3⟩ := hp
  refine ⟨?_, ?_, ?_⟩ <;> simp only [mixedAny] <;> walk h

theorem mixedZero_rel (h : OpsRel R o o') {p : Proj α} {p' : Proj β} {x y : α} {x' y' : β} (hp : PRel R p p')
    (hx : R x x') (hy : R y y') : PRel R (mixedZero o p x y) (mixedZero o' p' x' y') := by
  obtain ⟨p1, p2, p3⟩ := hp
  refine ⟨?_, ?_, ?_⟩ <;> simp only [mixedZero] <;> walk h

theorem doubleAny_rel (h : OpsRel R o o') {p : Proj α} {p' : Proj β} (hp : PRel R p p') :
    PRel R (doubleAny o p) (doubleAny o' p') := by
  obtain ⟨p1, p2, p3⟩ := hp
  refine ⟨?_, ?_, ?_⟩ <;> simp only [doubleAny] <;> walk h

theorem doubleZero_rel (h : OpsRel R o o') {p : Proj α} {p' : Proj β} (hp : PRel R p p') :
    PRel R (doubleZero o p) (doubleZero o' p') := by
  obtain ⟨p1, p2, p3⟩ := hp
  refine ⟨?_, ?_, ?_⟩ <;> simp only [doubleZero] <;> walk h

end rel

/-- The operations of a field, with the constants of the curve. -/
def fieldOps (F : Type) [Field F] : FOps F where
  add := (· + ·)
  sub := (· - ·)
  mul := (· * ·)
  a := 0
  b3 := 21

section closed
open Koblitz
variable {F : Type} [Field F]

theorem add_closed (f : Formulas) (p q : Proj F) :
    f.add (fieldOps F) p q = ⟨rcbX p.x p.y p.z q.x q.y q.z, rcbY p.x p.y p.z q.x q.y q.z, rcbZ p.x p.y p.z q.x q.y q.z⟩ := by
  cases f <;> simp only [Formulas.add, addAny, addZero, fieldOps, rcbX, rcbY, rcbZ, Proj.mk.injEq] <;>
    refine ⟨?_, ?_, ?_⟩ <;> ring

theorem mixed_closed (f : Formulas) (p : Proj F) (x y : F) :
    f.mixed (fieldOps F) p x y = ⟨rcbX p.x p.y p.z x y 1, rcbY p.x p.y p.z x y 1, rcbZ p.x p.y p.z x y 1⟩ := by
  cases f <;> simp only [Formulas.mixed, mixedAny, mixedZero, fieldOps, rcbX, rcbY, rcbZ, Proj.mk.injEq] <;>
    refine ⟨?_, ?_, ?_⟩ <;> ring

theorem double_closed (f : Formulas) (p : Proj F) (h : p.y ^ 2 * p.z = p.x ^ 3 + 7 * p.z ^ 3) :
    f.double (fieldOps F) p = ⟨rcbX p.x p.y p.z p.x p.y p.z, rcbY p.x p.y p.z p.x p.y p.z, rcbZ p.x p.y p.z p.x p.y p.z⟩ := by
  cases f <;> simp only [Formulas.double, doubleAny, doubleZero, fieldOps, rcbX, rcbY, rcbZ, Proj.mk.injEq] <;>
    refine ⟨?_, ?_, ?_⟩
  · ring
  · ring
  · linear_combination 6 * p.y * h
  · ring
  · linear_combination 126 * p.z * h
  · linear_combination 6 * p.y * h

end closed

end Spartan.Pt

namespace Spartan.Pt
open Koblitz Spec MParams

/-- The limbs are homogeneous coordinates of `P`. -/
def LRep (p : Proj Limbs) (P : Secq) : Prop :=
  ∃ p' : Proj (ZMod secpN), PRel (Limbs.Rep secpN) p p' ∧ HRep p'.x p'.y p'.z P

theorem limbOps_rel : OpsRel (Limbs.Rep secpN) limbOps (fieldOps (ZMod secpN)) where
  add := fun h h' => rep_add valid_Q h h'
  sub := fun h h' => rep_sub valid_Q h h'
  mul := fun h h' => rep_mul valid_Q h h'
  a := rep_zero valid_Q
  b3 := by
    have h3 := rep_fromU64 valid_Q 3
    have := rep_mul valid_Q h3 curve_constants.1
    have e : ((3 : UInt64).toNat : ZMod secpN) * 7 = 21 := by
      rw [show (3 : UInt64).toNat = 3 from rfl]; norm_num
    rw [e] at this
    exact this

theorem LRep.add (f : Formulas) {p q : Proj Limbs} {P Q : Secq} (hp : LRep p P) (hq : LRep q Q) :
    LRep (f.add limbOps p q) (P + Q) := by
  obtain ⟨p', hp, hP⟩ := hp
  obtain ⟨q', hq, hQ⟩ := hq
  refine ⟨f.add (fieldOps _) p' q', ?_, ?_⟩
  · cases f
    · exact addAny_rel limbOps_rel hp hq
    · exact addZero_rel limbOps_rel hp hq
  · rw [add_closed]
    exact HRep.add secq_consts.1 secq_noTwo hP hQ

theorem LRep.double (f : Formulas) {p : Proj Limbs} {P : Secq} (hp : LRep p P) :
    LRep (f.double limbOps p) (P + P) := by
  obtain ⟨p', hp, hP⟩ := hp
  refine ⟨f.double (fieldOps _) p', ?_, ?_⟩
  · cases f
    · exact doubleAny_rel limbOps_rel hp
    · exact doubleZero_rel limbOps_rel hp
  · rw [double_closed _ _ hP.eqn]
    exact HRep.add secq_consts.1 secq_noTwo hP hP

theorem LRep.mixed (f : Formulas) {p : Proj Limbs} {P : Secq} (hp : LRep p P) {a b : Limbs} {x y : ZMod secpN}
    (ha : a.Rep secpN x) (hb : b.Rep secpN y) (h : (koblitz (ZMod secpN)).Nonsingular x y) :
    LRep (f.mixed limbOps p a b) (P + .some x y h) := by
  obtain ⟨p', hp, hP⟩ := hp
  refine ⟨f.mixed (fieldOps _) p' x y, ?_, ?_⟩
  · cases f
    · exact mixedAny_rel limbOps_rel hp ha hb
    · exact mixedZero_rel limbOps_rel hp ha hb
  · rw [mixed_closed]
    exact HRep.add (Q := .some x y h) secq_consts.1 secq_noTwo hP
      ⟨one_ne_zero, (mul_one x).symm, (mul_one y).symm⟩

theorem LRep.identity : LRep projIdentity 0 :=
  ⟨⟨0, 1, 0⟩, ⟨rep_zero valid_Q, rep_one valid_Q, rep_zero valid_Q⟩, rfl, one_ne_zero, rfl⟩

theorem LRep.ofAffine {a : Aff} {P : Secq} (h : IsPoint a P) : LRep (fromAffine a) P := by
  unfold fromAffine
  cases P with
  | zero =>
    rw [if_pos h.1]
    exact LRep.identity
  | some x y hns =>
    rw [if_neg (by rw [h.1]; exact Bool.false_ne_true)]
    exact ⟨⟨x, y, 1⟩, ⟨h.2.1, h.2.2, rep_one valid_Q⟩, one_ne_zero, (mul_one x).symm, (mul_one y).symm⟩

theorem IsPoint.ofProj {p : Proj Limbs} {P : Secq} (h : LRep p P) : IsPoint (toAffine p) P := by
  obtain ⟨p', ⟨h1, h2, h3⟩, hP⟩ := h
  have hi := invertQ_eq h3
  unfold toAffine
  cases P with
  | zero =>
    rw [hi.1 hP.2.2]
    exact ⟨rfl, rep_zero valid_Q, rep_zero valid_Q⟩
  | some x y hns =>
    obtain ⟨hz, hx, hy⟩ := hP
    obtain ⟨b, e, hb⟩ := hi.2 hz
    rw [e]
    refine ⟨rfl, ?_, ?_⟩
    · have := rep_mul valid_Q h1 hb
      rwa [hx, mul_inv_cancel_right₀ hz] at this
    · have := rep_mul valid_Q h2 hb
      rwa [hy, mul_inv_cancel_right₀ hz] at this

theorem IsPoint.negCore {a : Aff} {P : Secq} (h : IsPoint a P) : IsPoint (affNegCore a) (-P) := by
  cases P with
  | zero =>
    obtain ⟨h1, h2, h3⟩ := h
    have := rep_neg valid_Q h3
    rw [neg_zero] at this
    exact ⟨h1, h2, this⟩
  | some x y hns =>
    rw [WeierstrassCurve.Affine.Point.neg_some]
    refine ⟨h.1, h.2.1, ?_⟩
    rw [negY]
    exact rep_neg valid_Q h.2.2

theorem LRep.subAffine (f : Formulas) {p : Proj Limbs} {P Q : Secq} {a : Aff} (hp : LRep p P) (ha : IsPoint a Q) :
    LRep (projSubAffine f p a) (P - Q) := by
  have hn := IsPoint.negCore ha
  unfold projSubAffine
  simp only
  rw [sub_eq_add_neg]
  generalize affNegCore a = b at hn ⊢
  generalize -Q = R at hn ⊢
  cases R with
  | zero =>
    rw [if_pos hn.1]
    exact (add_zero P).symm ▸ hp
  | some x y hns =>
    rw [if_neg (by rw [hn.1]; exact Bool.false_ne_true)]
    exact hp.mixed f hn.2.1 hn.2.2 hns

end Spartan.Pt
