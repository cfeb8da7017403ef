import Verif.Lemmas.ZKSumcheck
import Mathlib.Algebra.BigOperators.Fin
import Mathlib.Logic.Equiv.Fin.Basic
import Mathlib.Tactic.Module

/-!
Couplings of two runs of a randomised prover: a bijection on the random scalars under which the
two runs return the same result.
-/

set_option linter.unusedSectionVars false
namespace Spartan
open Spec
variable {F G P : Type} [Field F] [AddCommGroup G] [Module F G]
  [DecidableEq F] [DecidableEq P] [DecidableEq G]

/-- The tape that starts with the `n` scalars `d` and continues with `t`. -/
def Tape.pre {F : Type} {n : Nat} (d : Fin n → F) (t : Tape F) : Tape F :=
  fun i => if h : i < n then d ⟨i, h⟩ else t (i - n)

/-- The tape that starts with `x` and continues with `t`. -/
def Tape.cons {F : Type} (x : F) (t : Tape F) : Tape F := fun i => match i with
  | 0 => x
  | i + 1 => t i

@[simp] theorem Tape.next_cons {F : Type} (x : F) (t : Tape F) : (Tape.cons x t).next = (x, t) := rfl

@[simp] theorem Tape.nextVec_pre {F : Type} {n : Nat} (d : Fin n → F) (t : Tape F) :
    (Tape.pre d t).nextVec n = (List.ofFn d, t) := by
  unfold Tape.nextVec
  congr 1
  · apply List.ext_getElem
    · simp
    · intro i h1 h2
      have : i < n := by simpa using h1
      simp [Tape.pre, this]
  · funext i; simp [Tape.pre]

theorem Tape.pre_append {F : Type} {n m : Nat} (d : Fin n → F) (e : Fin m → F) (t : Tape F) :
    Tape.pre (Fin.append d e) t = Tape.pre d (Tape.pre e t) := by
  funext i
  unfold Tape.pre
  by_cases h : i < n
  · rw [dif_pos (by omega), dif_pos h]
    exact Fin.append_left d e ⟨i, h⟩
  · rw [dif_neg h]
    by_cases h' : i < n + m
    · rw [dif_pos h', dif_pos (by omega)]
      have := Fin.append_right d e ⟨i - n, by omega⟩
      rw [← this]
      congr 1; ext; simp; omega
    · rw [dif_neg h', dif_neg (by omega)]
      congr 1; omega

theorem Tape.pre_one {F : Type} (x : F) (t : Tape F) : Tape.pre (fun _ : Fin 1 => x) t = Tape.cons x t := by
  funext i
  cases i with
  | zero => simp [Tape.pre, Tape.cons]
  | succ i => simp [Tape.pre, Tape.cons]

theorem Tape.pre_zero {F : Type} (d : Fin 0 → F) (t : Tape F) : Tape.pre d t = t := by
  funext i; simp [Tape.pre]

/-- A way to lay out values of type `X` as `n` consecutive scalars of the tape. -/
structure Lay (F : Type) (X : Type) (n : Nat) where
  put : X → Tape F → Tape F
  e : X ≃ (Fin n → F)
  eq : ∀ x t, put x t = Tape.pre (e x) t

/-- One scalar. -/
def Lay.one (F : Type) : Lay F F 1 where
  put := Tape.cons
  e := (Equiv.funUnique (Fin 1) F).symm
  eq := fun x t => (Tape.pre_one x t).symm

/-- A vector. -/
def Lay.vec (F : Type) (n : Nat) : Lay F (Fin n → F) n := ⟨Tape.pre, Equiv.refl _, fun _ _ => rfl⟩

/-- One layout after the other. -/
def Lay.prod {F X Y : Type} {n m : Nat} (L : Lay F X n) (M : Lay F Y m) : Lay F (X × Y) (n + m) where
  put := fun x t => L.put x.1 (M.put x.2 t)
  e := (L.e.prodCongr M.e).trans (Fin.appendEquiv n m)
  eq := fun x t => by
    rw [L.eq, M.eq, ← Tape.pre_append]; rfl

/-- Change of type. -/
def Lay.equiv {F X Y : Type} {n : Nat} (L : Lay F X n) (f : Y ≃ X) : Lay F Y n where
  put := fun y t => L.put (f y) t
  e := f.trans L.e
  eq := fun y t => L.eq _ t

/-- Empty layout. -/
def Lay.nil (F X : Type) [Unique X] : Lay F X 0 where
  put := fun _ t => t
  e := Equiv.ofUnique _ _
  eq := fun _ t => (Tape.pre_zero _ t).symm

/-- Several copies of a layout. -/
def Lay.pi {F X : Type} {n : Nat} (L : Lay F X n) : (k : Nat) → Lay F (Fin k → X) (k * n)
  | 0 => ⟨fun _ t => t, (Equiv.ofUnique _ (Fin 0 → F)).trans (Equiv.cast (by rw [Nat.zero_mul])), by
      intro x t
      funext i
      simp [Tape.pre]⟩
  | k + 1 =>
    let M := (L.prod (L.pi k)).equiv (Fin.consEquiv fun _ : Fin (k + 1) => X).symm
    have h : n + k * n = (k + 1) * n := by ring
    ⟨fun x t => L.put (x 0) ((L.pi k).put (Fin.tail x) t), M.e.trans (Equiv.cast (by rw [h])), by
      intro x t
      have := M.eq x t
      have e : ∀ (a b : Nat) (hab : a = b) (d : Fin a → F),
          Tape.pre (cast (by rw [hab]) d : Fin b → F) t = Tape.pre d t := by
        rintro a b rfl d; rfl
      rw [Equiv.trans_apply, Equiv.cast_apply, e _ _ h, ← this]; rfl⟩

@[simp] theorem Lay.pi_put_succ {F X : Type} {n k : Nat} (L : Lay F X n) (x : Fin (k + 1) → X) (t : Tape F) :
    (L.pi (k + 1)).put x t = L.put (x 0) ((L.pi k).put (Fin.tail x) t) := rfl
@[simp] theorem Lay.pi_put_zero {F X : Type} {n : Nat} (L : Lay F X n) (x : Fin 0 → X) (t : Tape F) :
    (L.pi 0).put x t = t := rfl

/-- Two runs agree under a bijection of the first `n` random scalars, whatever related scalars
follow them. -/
def Coup {β : Type} (R : Tape F → Tape F → Prop) (n : Nat) (f1 f2 : Tape F → β) : Prop :=
  ∃ φ : (Fin n → F) ≃ (Fin n → F), ∀ d t t', R t t' → f1 (Tape.pre d t) = f2 (Tape.pre (φ d) t')

theorem Coup.const {β : Type} {R : Tape F → Tape F → Prop} {f1 f2 : Tape F → β}
    (h : ∀ t t', R t t' → f1 t = f2 t') : Coup R 0 f1 f2 :=
  ⟨Equiv.refl _, fun d t t' hR => by
    rw [Tape.pre_zero, Tape.pre_zero]; exact h _ _ hR⟩

theorem Coup.const' {β : Type} {R : Tape F → Tape F → Prop} {n : Nat} {f1 f2 : Tape F → β}
    (h : ∀ t t', f1 t = f2 t') : Coup R n f1 f2 :=
  ⟨Equiv.refl _, fun _ _ _ _ => h _ _⟩

/-- The rule for drawing: a bijection `σ` of the drawn values, then a coupling of the rest that may
depend on them. -/
theorem Coup.draw {β X : Type} {R : Tape F → Tape F → Prop} {n m : Nat} (L : Lay F X n)
    {f1 f2 : Tape F → β} (σ : X ≃ X)
    (h : ∀ x, Coup R m (fun t => f1 (L.put x t)) (fun t => f2 (L.put (σ x) t))) :
    Coup R (n + m) f1 f2 := by
  choose φ hφ using h
  refine ⟨(Fin.appendEquiv n m).symm.trans (((L.e.symm.prodCongr (Equiv.refl _)).trans
    ((Equiv.prodShear σ φ).trans (L.e.prodCongr (Equiv.refl _)))).trans (Fin.appendEquiv n m)), ?_⟩
  intro d t t' hR
  obtain ⟨⟨a, b⟩, rfl⟩ := (Fin.appendEquiv n m).surjective d
  obtain ⟨x, rfl⟩ := L.e.surjective a
  have := hφ x b t t' hR
  simp only [L.eq] at this
  rw [← Tape.pre_append, ← Tape.pre_append] at this
  refine this.trans ?_
  congr 2
  rw [Equiv.trans_apply, Equiv.symm_apply_apply]
  simp only [Equiv.trans_apply, Equiv.prodCongr_apply, Prod.map, Equiv.symm_apply_apply,
    Equiv.prodShear_apply, Equiv.refl_apply]
  rfl

/-- Adding a multiple of a direction that the observed value `L` does not see. -/
def kerShear {X Y : Type} [AddCommGroup X] [Module F X] (L : X → Y) (c : Y → F) (v : X)
    (hL : ∀ (x : X) (s : F), L (x + s • v) = L x) : X ≃ X where
  toFun x := x + c (L x) • v
  invFun x := x - c (L x) • v
  left_inv x := by
    show x + c (L x) • v - c (L (x + c (L x) • v)) • v = x
    rw [hL]; abel
  right_inv x := by
    show x - c (L x) • v + c (L (x - c (L x) • v)) • v = x
    have : L (x - c (L x) • v) = L x := by
      rw [sub_eq_add_neg, ← neg_smul, hL]
    rw [this]; abel

theorem kerShear_apply {X Y : Type} [AddCommGroup X] [Module F X] (L : X → Y) (c : Y → F) (v : X)
    (hL : ∀ (x : X) (s : F), L (x + s • v) = L x) (x : X) : kerShear L c v hL x = x + c (L x) • v := rfl

/-! ### Sigma protocols -/

/-- Two scalars. -/
abbrev lay2 (F : Type) : Lay F (F × F) 2 := (Lay.one F).prod (Lay.one F)
/-- Five scalars. -/
abbrev lay5 (F : Type) : Lay F (F × F × F × F × F) 5 :=
  (Lay.one F).prod ((Lay.one F).prod ((Lay.one F).prod ((Lay.one F).prod (Lay.one F))))

/-- Transcript of `KnowledgeProof` before the challenge. -/
def knTr (E : Env F G P) (tr : Tr F P) (C α : G) : Tr F P :=
  (((tr.protocol "knowledge proof").point "C" (E.compress C)).point "alpha" (E.compress α)) ++ [.chal "c"]

theorem knowledge_prove_eq (E : Env F G P) {g0 h C α : G} {x r d1 d2 : F} (tr : Tr F P) (t : Tape F)
    (hC : x • g0 + r • h = C) (hα : d1 • g0 + d2 • h = α) :
    KnowledgeProof.prove E (Gens.single g0 h) tr ((lay2 F).put (d1, d2) t) x r =
      .ok (⟨E.compress α, x * E.hash (knTr E tr C α) + d1, r * E.hash (knTr E tr C α) + d2⟩,
        E.compress C, knTr E tr C α, t) := by
  subst hC hα
  unfold KnowledgeProof.prove
  simp only [Lay.prod, Lay.one, Tape.next_cons, commit1_single, ok_bind, Env.challenge]
  rfl

theorem knowledge_coupled (E : Env F G P) {g0 h C : G} {x r x' r' : F}
    (hC : x • g0 + r • h = C) (hC' : x' • g0 + r' • h = C) (tr : Tr F P) :
    ∃ σ : F × F ≃ F × F, ∀ d, ∃ pf tr', ∀ t,
      KnowledgeProof.prove E (Gens.single g0 h) tr ((lay2 F).put d t) x r =
        .ok (pf, E.compress C, tr', t) ∧
      KnowledgeProof.prove E (Gens.single g0 h) tr ((lay2 F).put (σ d) t) x' r' =
        .ok (pf, E.compress C, tr', t) := by
  have hL : ∀ (d : F × F) (s : F), (d + s • (x - x', r - r')).1 • g0 + (d + s • (x - x', r - r')).2 • h =
      d.1 • g0 + d.2 • h := by
    rintro ⟨d1, d2⟩ s
    have hv : (x - x') • g0 + (r - r') • h = 0 := by
      rw [sub_smul, sub_smul, sub_add_sub_comm, hC, hC', sub_self]
    simp only [Prod.smul_mk, Prod.mk_add_mk, smul_eq_mul]
    rw [show (d1 + s * (x - x')) • g0 + (d2 + s * (r - r')) • h =
      d1 • g0 + d2 • h + s • ((x - x') • g0 + (r - r') • h) by module, hv, smul_zero, add_zero]
  refine ⟨kerShear (fun d : F × F => d.1 • g0 + d.2 • h) (fun α => E.hash (knTr E tr C α))
    (x - x', r - r') hL, ?_⟩
  rintro ⟨d1, d2⟩
  refine ⟨_, _, fun t => ⟨knowledge_prove_eq E tr t hC rfl, ?_⟩⟩
  rw [kerShear_apply]
  have h2 := hL (d1, d2) (E.hash (knTr E tr C (d1 • g0 + d2 • h)))
  simp only [Prod.smul_mk, Prod.mk_add_mk, smul_eq_mul] at h2 ⊢
  rw [knowledge_prove_eq E tr t hC' h2]
  congr 3 <;> ring

/-- Transcript of `EqualityProof` before the challenge. -/
def cEqTr (E : Env F G P) (tr : Tr F P) (C1 C2 α : G) : Tr F P :=
  ((((tr.protocol "equality proof").point "C1" (E.compress C1)).point "C2" (E.compress C2)).point "alpha"
    (E.compress α)) ++ [.chal "c"]

theorem equality_prove_eq (E : Env F G P) {g0 h C1 C2 α : G} {v1 s1 v2 s2 d : F} (tr : Tr F P) (t : Tape F)
    (hC1 : v1 • g0 + s1 • h = C1) (hC2 : v2 • g0 + s2 • h = C2) (hα : d • h = α) :
    EqualityProof.prove E (Gens.single g0 h) tr ((Lay.one F).put d t) v1 s1 v2 s2 =
      .ok (⟨E.compress α, E.hash (cEqTr E tr C1 C2 α) * (s1 - s2) + d⟩,
        E.compress C1, E.compress C2, cEqTr E tr C1 C2 α, t) := by
  subst hC1 hC2 hα
  unfold EqualityProof.prove
  simp only [Lay.one, Tape.next_cons, commit1_single, ok_bind, Env.challenge]
  rfl

theorem equality_coupled (E : Env F G P) {g0 h C1 C2 : G} {v s1 s2 v' s1' s2' : F}
    (hC1 : v • g0 + s1 • h = C1) (hC2 : v • g0 + s2 • h = C2)
    (hC1' : v' • g0 + s1' • h = C1) (hC2' : v' • g0 + s2' • h = C2) (tr : Tr F P) :
    ∃ σ : F ≃ F, ∀ d, ∃ pf tr', ∀ t,
      EqualityProof.prove E (Gens.single g0 h) tr ((Lay.one F).put d t) v s1 v s2 =
        .ok (pf, E.compress C1, E.compress C2, tr', t) ∧
      EqualityProof.prove E (Gens.single g0 h) tr ((Lay.one F).put (σ d) t) v' s1' v' s2' =
        .ok (pf, E.compress C1, E.compress C2, tr', t) := by
  have hL : ∀ (d s : F), (d + s • ((s1 - s2) - (s1' - s2'))) • h = d • h := by
    intro d s
    have hv : ((s1 - s2) - (s1' - s2')) • h = 0 := by
      have e1 : (s1 - s2) • h = C1 - C2 := by rw [← hC1, ← hC2]; module
      have e2 : (s1' - s2') • h = C1 - C2 := by rw [← hC1', ← hC2']; module
      rw [sub_smul, e1, e2, sub_self]
    rw [add_smul, smul_assoc, hv, smul_zero, add_zero]
  refine ⟨kerShear (fun d : F => d • h) (fun α => E.hash (cEqTr E tr C1 C2 α)) _ hL, ?_⟩
  intro d
  refine ⟨_, _, fun t => ⟨equality_prove_eq E tr t hC1 hC2 rfl, ?_⟩⟩
  rw [kerShear_apply, equality_prove_eq E tr t hC1' hC2' (hL d _)]
  congr 3
  rw [smul_eq_mul]; ring

/-- Transcript of `ProductProof` before the challenge. -/
def prTr (E : Env F G P) (tr : Tr F P) (X Y Z α β δ : G) : Tr F P :=
  (((((((tr.protocol "product proof").point "X" (E.compress X)).point "Y" (E.compress Y)).point "Z"
    (E.compress Z)).point "alpha" (E.compress α)).point "beta" (E.compress β)).point "delta"
    (E.compress δ)) ++ [.chal "c"]

theorem product_prove_eq {E : Env F G P} (hE : E.Lawful) {g0 h X Y Z α β δ : G}
    {x rX y rY z rZ b1 b2 b3 b4 b5 : F}
    (tr : Tr F P) (t : Tape F) (hX : x • g0 + rX • h = X) (hY : y • g0 + rY • h = Y)
    (hZ : z • g0 + rZ • h = Z) (hα : b1 • g0 + b2 • h = α) (hβ : b3 • g0 + b4 • h = β)
    (hδ : b3 • X + b5 • h = δ) :
    ProductProof.prove E (Gens.single g0 h) tr ((lay5 F).put (b1, b2, b3, b4, b5) t) x rX y rY z rZ =
      .ok (⟨E.compress α, E.compress β, E.compress δ, b1 + E.hash (prTr E tr X Y Z α β δ) * x,
        b2 + E.hash (prTr E tr X Y Z α β δ) * rX, b3 + E.hash (prTr E tr X Y Z α β δ) * y,
        b4 + E.hash (prTr E tr X Y Z α β δ) * rY,
        b5 + E.hash (prTr E tr X Y Z α β δ) * (rZ - rX * y)⟩,
        E.compress X, E.compress Y, E.compress Z, prTr E tr X Y Z α β δ, t) := by
  subst hX hY hZ hα hβ hδ
  unfold ProductProof.prove
  have hs : ∀ X' : G, ({ n := 1, G := [X'], h := (Gens.single g0 h).h } : Gens G) = Gens.single X' h :=
    fun _ => rfl
  simp only [Lay.prod, Lay.one, Tape.next_cons, commit1_single, ok_bind, Env.challenge,
    decompressU_compress hE, hs]
  rfl

theorem product_coupled {E : Env F G P} (hE : E.Lawful) {g0 h X Y Z : G}
    {x rX y rY rZ x' rX' y' rY' rZ' : F} (hX : x • g0 + rX • h = X) (hY : y • g0 + rY • h = Y)
    (hZ : (x * y) • g0 + rZ • h = Z) (hX' : x' • g0 + rX' • h = X) (hY' : y' • g0 + rY' • h = Y)
    (hZ' : (x' * y') • g0 + rZ' • h = Z) (tr : Tr F P) :
    ∃ σ : F × F × F × F × F ≃ F × F × F × F × F, ∀ d, ∃ pf tr', ∀ t,
      ProductProof.prove E (Gens.single g0 h) tr ((lay5 F).put d t) x rX y rY (x * y) rZ =
        .ok (pf, E.compress X, E.compress Y, E.compress Z, tr', t) ∧
      ProductProof.prove E (Gens.single g0 h) tr ((lay5 F).put (σ d) t) x' rX' y' rY' (x' * y') rZ' =
        .ok (pf, E.compress X, E.compress Y, E.compress Z, tr', t) := by
  have e1 : (x - x') • g0 + (rX - rX') • h = 0 := by
    rw [sub_smul, sub_smul, sub_add_sub_comm, hX, hX', sub_self]
  have e2 : (y - y') • g0 + (rY - rY') • h = 0 := by
    rw [sub_smul, sub_smul, sub_add_sub_comm, hY, hY', sub_self]
  have e3 : (y - y') • X + ((rZ - rX * y) - (rZ' - rX' * y')) • h = 0 := by
    have h1 : y • X + (rZ - rX * y) • h = Z := by rw [← hX, ← hZ]; module
    have h2 : y' • X + (rZ' - rX' * y') • h = Z := by rw [← hX', ← hZ']; module
    rw [sub_smul, sub_smul, sub_add_sub_comm, h1, h2, sub_self]
  obtain ⟨L, hLd⟩ : ∃ L : F × F × F × F × F → G × G × G, ∀ d1 d2 d3 d4 d5, L (d1, d2, d3, d4, d5) =
    (d1 • g0 + d2 • h, d3 • g0 + d4 • h, d3 • X + d5 • h) :=
    ⟨fun d => (d.1 • g0 + d.2.1 • h, d.2.2.1 • g0 + d.2.2.2.1 • h, d.2.2.1 • X + d.2.2.2.2 • h),
      fun _ _ _ _ _ => rfl⟩
  have hL : ∀ (d : F × F × F × F × F) (s : F), L (d + s • (x - x', rX - rX', y - y', rY - rY',
          (rZ - rX * y) - (rZ' - rX' * y'))) = L d := by
    rintro ⟨d1, d2, d3, d4, d5⟩ s
    rw [Prod.smul_mk, Prod.smul_mk, Prod.smul_mk, Prod.smul_mk, Prod.mk_add_mk, Prod.mk_add_mk,
      Prod.mk_add_mk, Prod.mk_add_mk, hLd, hLd]
    simp only [Prod.smul_mk, Prod.mk_add_mk, smul_eq_mul, Prod.mk.injEq]
    refine ⟨?_, ?_, ?_⟩
    · rw [show (d1 + s * (x - x')) • g0 + (d2 + s * (rX - rX')) • h = d1 • g0 + d2 • h +
        s • ((x - x') • g0 + (rX - rX') • h) by module, e1, smul_zero, add_zero]
    · rw [show (d3 + s * (y - y')) • g0 + (d4 + s * (rY - rY')) • h = d3 • g0 + d4 • h +
        s • ((y - y') • g0 + (rY - rY') • h) by module, e2, smul_zero, add_zero]
    · rw [show (d3 + s * (y - y')) • X + (d5 + s * (rZ - rX * y - (rZ' - rX' * y'))) • h =
        d3 • X + d5 • h + s • ((y - y') • X + ((rZ - rX * y) - (rZ' - rX' * y')) • h) by module, e3,
        smul_zero, add_zero]
  refine ⟨kerShear L (fun a : G × G × G => E.hash (prTr E tr X Y Z a.1 a.2.1 a.2.2)) _ hL, ?_⟩
  rintro ⟨d1, d2, d3, d4, d5⟩
  refine ⟨_, _, fun t => ⟨product_prove_eq hE tr t hX hY hZ rfl rfl rfl, ?_⟩⟩
  rw [kerShear_apply]
  have h2 := hL (d1, d2, d3, d4, d5) (E.hash (prTr E tr X Y Z (d1 • g0 + d2 • h) (d3 • g0 + d4 • h)
    (d3 • X + d5 • h)))
  rw [Prod.smul_mk, Prod.smul_mk, Prod.smul_mk, Prod.smul_mk, Prod.mk_add_mk, Prod.mk_add_mk,
      Prod.mk_add_mk, Prod.mk_add_mk, hLd, hLd] at h2
  simp only [Prod.smul_mk, Prod.mk_add_mk, smul_eq_mul, Prod.mk.injEq, hLd] at h2 ⊢
  rw [product_prove_eq hE tr t hX' hY' hZ' h2.1 h2.2.1 h2.2.2]
  congr 3 <;> ring

/-! ### Dot product -/

theorem lc_ofFn {M : Type} [AddCommGroup M] [Module F M] {n : Nat} (d : Fin n → F) {Gv : List M}
    (hG : Gv.length = n) : lc (List.ofFn d) Gv = ∑ i, d i • Gv.get (Fin.cast hG.symm i) := by
  subst hG
  unfold lc
  rw [← List.sum_ofFn]
  congr 1
  apply List.ext_getElem
  · simp
  · intro i h1 h2
    simp

theorem lc_ofFn_add {M : Type} [AddCommGroup M] [Module F M] {n : Nat} (d v : Fin n → F) (s : F)
    {Gv : List M} (hG : Gv.length = n) :
    lc (List.ofFn (d + s • v)) Gv = lc (List.ofFn d) Gv + s • lc (List.ofFn v) Gv := by
  rw [lc_ofFn _ hG, lc_ofFn _ hG, lc_ofFn _ hG, Finset.smul_sum, ← Finset.sum_add_distrib]
  refine Finset.sum_congr rfl fun i _ => ?_
  simp [add_smul, mul_smul]

theorem lc_ofFn_sub {M : Type} [AddCommGroup M] [Module F M] {n : Nat} (d v : Fin n → F)
    {Gv : List M} (hG : Gv.length = n) :
    lc (List.ofFn (d - v)) Gv = lc (List.ofFn d) Gv - lc (List.ofFn v) Gv := by
  have := lc_ofFn_add d v (-1 : F) hG
  rw [neg_one_smul, neg_one_smul, ← sub_eq_add_neg, ← sub_eq_add_neg] at this
  exact this

/-- The entries of a list of length `n` as a function. -/
def toFn {n : Nat} (x : List F) : Fin n → F := fun i => x.getD i 0

theorem ofFn_toFn {n : Nat} {x : List F} (h : x.length = n) : List.ofFn (toFn (n := n) x) = x := by
  subst h
  apply List.ext_getElem
  · simp
  · intro i h1 h2; simp [toFn, h2]

/-- Transcript of `DotProductProof` before the challenge. -/
def dpTr (E : Env F G P) (tr : Tr F P) (a : List F) (Cx Cy δ β : G) : Tr F P :=
  ((((((tr.protocol "dot product proof").point "Cx" (E.compress Cx)).point "Cy" (E.compress Cy)).scalars
    "a" a).point "delta" (E.compress δ)).point "beta" (E.compress β)) ++ [.chal "c"]

/-- Layout of the randomness of `DotProductProof::prove`. -/
abbrev layDP (F : Type) (n : Nat) : Lay F ((Fin n → F) × F × F) (n + (1 + 1)) :=
  (Lay.vec F n).prod ((Lay.one F).prod (Lay.one F))

theorem dotproduct_prove_eq (E : Env F G P) {g0 h : G} {gensn : Gens G} (hg : gensn.WF) {n : Nat}
    (hn : gensn.n = n) {x a : List F} (hx : x.length = n) (ha : a.length = n) {bx y bY rD rB : F}
    {d : Fin n → F} {Cx Cy δ β : G}
    (tr : Tr F P) (t : Tape F) (hCx : lc x gensn.G + bx • gensn.h = Cx) (hCy : y • g0 + bY • h = Cy)
    (hδ : lc (List.ofFn d) gensn.G + rD • gensn.h = δ) (hβ : dot a (List.ofFn d) • g0 + rB • h = β) :
    DotProductProof.prove E (Gens.single g0 h) gensn tr ((layDP F n).put (d, rD, rB) t) x bx a y bY =
      .ok (⟨E.compress δ, E.compress β,
        List.ofFn (E.hash (dpTr E tr a Cx Cy δ β) • toFn x + d),
        E.hash (dpTr E tr a Cx Cy δ β) * bx + rD, E.hash (dpTr E tr a Cx Cy δ β) * bY + rB⟩,
        E.compress Cx, E.compress Cy, dpTr E tr a Cx Cy δ β, t) := by
  subst hCx hCy hδ hβ
  unfold DotProductProof.prove
  simp only
  rw [check_true (hx.trans ha.symm), ok_bind, check_true (hn.trans ha.symm), ok_bind,
    check_true (show (Gens.single g0 h).n = 1 from rfl), ok_bind]
  simp only [Lay.prod, Lay.one, Lay.vec, hx, Tape.nextVec_pre, Tape.next_cons]
  rw [commitV_eq hg (hn.trans hx.symm), ok_bind, commit1_single, ok_bind,
    commitV_eq hg (by rw [hn]; simp), ok_bind, innerProduct_eq (by simp [ha]), ok_bind, commit1_single,
    ok_bind]
  simp only [Env.challenge]
  have hz : ∀ c : F, List.zipWith (fun xi di => c * xi + di) x (List.ofFn d) =
      List.ofFn (c • toFn x + d) := by
    intro c
    subst hx
    apply List.ext_getElem
    · simp
    · intro i h1 h2
      have : i < x.length := by simpa using h2
      simp [toFn, this]
  rw [hz]
  rfl

theorem dotproduct_coupled (E : Env F G P) {g0 h : G} {gensn : Gens G} (hg : gensn.WF) {n : Nat}
    (hn : gensn.n = n) {a : List F} (ha : a.length = n) {x x' : List F} (hx : x.length = n)
    (hx' : x'.length = n) {bx bx' y y' bY bY' : F} (hy : dot x a = y) (hy' : dot x' a = y') {Cx Cy : G}
    (hCx : lc x gensn.G + bx • gensn.h = Cx) (hCx' : lc x' gensn.G + bx' • gensn.h = Cx)
    (hCy : y • g0 + bY • h = Cy) (hCy' : y' • g0 + bY' • h = Cy) (tr : Tr F P) :
    ∃ σ : (Fin n → F) × F × F ≃ (Fin n → F) × F × F, ∀ d, ∃ pf tr', ∀ t,
      DotProductProof.prove E (Gens.single g0 h) gensn tr ((layDP F n).put d t) x bx a y bY =
        .ok (pf, E.compress Cx, E.compress Cy, tr', t) ∧
      DotProductProof.prove E (Gens.single g0 h) gensn tr ((layDP F n).put (σ d) t) x' bx' a y' bY' =
        .ok (pf, E.compress Cx, E.compress Cy, tr', t) := by
  have hGl : gensn.G.length = n := by unfold Gens.WF at hg; omega
  have e1 : lc (List.ofFn (toFn x - toFn x' : Fin n → F)) gensn.G + (bx - bx') • gensn.h = 0 := by
    rw [lc_ofFn_sub _ _ hGl, ofFn_toFn hx, ofFn_toFn hx', sub_smul, sub_add_sub_comm, hCx, hCx', sub_self]
  have e2 : dot (List.ofFn (toFn x - toFn x' : Fin n → F)) a • g0 + (bY - bY') • h = 0 := by
    unfold dot
    rw [lc_ofFn_sub _ _ ha, ofFn_toFn hx, ofFn_toFn hx']
    rw [show lc x a = y from hy, show lc x' a = y' from hy', sub_smul, sub_smul, sub_add_sub_comm, hCy,
      hCy', sub_self]
  obtain ⟨L, hLd⟩ : ∃ L : (Fin n → F) × F × F → G × G, ∀ d1 d2 d3, L (d1, d2, d3) =
    (lc (List.ofFn d1) gensn.G + d2 • gensn.h, dot a (List.ofFn d1) • g0 + d3 • h) :=
    ⟨fun d => (lc (List.ofFn d.1) gensn.G + d.2.1 • gensn.h, dot a (List.ofFn d.1) • g0 + d.2.2 • h),
      fun _ _ _ => rfl⟩
  have hL : ∀ (d : (Fin n → F) × F × F) (s : F),
      L (d + s • (toFn x - toFn x', bx - bx', bY - bY')) = L d := by
    rintro ⟨d1, d2, d3⟩ s
    rw [Prod.smul_mk, Prod.smul_mk, Prod.mk_add_mk, Prod.mk_add_mk, hLd, hLd]
    simp only [Prod.mk.injEq]
    refine ⟨?_, ?_⟩
    · rw [lc_ofFn_add _ _ _ hGl, show ∀ A B : G, A + s • B + (d2 + s • (bx - bx')) • gensn.h =
        A + d2 • gensn.h + s • (B + (bx - bx') • gensn.h) by
          intro A B; rw [smul_eq_mul]; module, e1, smul_zero, add_zero]
    · rw [dot_comm a, dot_comm a (List.ofFn d1)]
      unfold dot at e2 ⊢
      rw [lc_ofFn_add _ _ _ ha, show ∀ A B : F, (A + s • B) • g0 + (d3 + s • (bY - bY')) • h =
        A • g0 + d3 • h + s • (B • g0 + (bY - bY') • h) by
          intro A B; rw [smul_eq_mul, smul_eq_mul]; module, e2, smul_zero, add_zero]
  refine ⟨kerShear L (fun p : G × G => E.hash (dpTr E tr a Cx Cy p.1 p.2)) _ hL, ?_⟩
  rintro ⟨d1, d2, d3⟩
  refine ⟨_, _, fun t => ⟨dotproduct_prove_eq E hg hn hx ha tr t hCx hCy rfl rfl, ?_⟩⟩
  rw [kerShear_apply]
  have h2 := hL (d1, d2, d3) (E.hash (dpTr E tr a Cx Cy (lc (List.ofFn d1) gensn.G + d2 • gensn.h)
    (dot a (List.ofFn d1) • g0 + d3 • h)))
  rw [Prod.smul_mk, Prod.smul_mk, Prod.mk_add_mk, Prod.mk_add_mk, hLd, hLd] at h2
  simp only [Prod.smul_mk, Prod.mk_add_mk, Prod.mk.injEq, hLd] at h2 ⊢
  rw [dotproduct_prove_eq E hg hn hx' ha tr t hCx' hCy' h2.1 h2.2]
  congr 3
  · congr 1; funext i; simp; ring
  · rw [smul_eq_mul]; ring
  · rw [smul_eq_mul]; ring

end Spartan
