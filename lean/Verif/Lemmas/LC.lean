import Verif.Model.Base
import Mathlib.Tactic.Ring
import Mathlib.Tactic.Abel
import Mathlib.Tactic.LinearCombination
import Mathlib.Tactic.Module

/-! Helper lemmas about `lc`, `dot`, `msm` and the commit functions. -/

namespace Spartan

section alg
variable {F M : Type} [Field F] [AddCommGroup M] [Module F M]

@[simp] theorem lc_nil_left (ps : List M) : lc ([] : List F) ps = 0 := by simp [lc]
@[simp] theorem lc_nil_right (ss : List F) : lc ss ([] : List M) = 0 := by simp [lc]
@[simp] theorem lc_cons (s : F) (ss : List F) (p : M) (ps : List M) :
    lc (s :: ss) (p :: ps) = s • p + lc ss ps := by simp [lc]

theorem lc_append {a b : List F} {p q : List M} (h : a.length = p.length) :
    lc (a ++ b) (p ++ q) = lc a p + lc b q := by
  induction a generalizing p with
  | nil => cases p <;> simp_all
  | cons x a ih =>
    cases p with
    | nil => simp at h
    | cons y p => simp at h; simp [ih h, add_assoc]

theorem lc_map_smul_left (c : F) (a : List F) (p : List M) :
    lc (a.map (c * ·)) p = c • lc a p := by
  induction a generalizing p with
  | nil => simp
  | cons x a ih => cases p <;> simp [ih, smul_smul]

theorem lc_map_mul_left' (c : F) (a : List F) (p : List M) :
    lc (a.map (· * c)) p = c • lc a p := by
  rw [← lc_map_smul_left]; congr 1; ext1; simp [mul_comm]

theorem lc_map_smul_right (c : F) (a : List F) (p : List M) :
    lc a (p.map (c • ·)) = c • lc a p := by
  induction a generalizing p with
  | nil => simp
  | cons x a ih => cases p <;> simp [ih, smul_smul, mul_comm]

theorem lc_zipWith_left {f : F → F → F} {c d : F} (hf : ∀ x y, f x y = c * x + d * y)
    {a b : List F} (p : List M) (h : a.length = b.length) :
    lc (List.zipWith f a b) p = c • lc a p + d • lc b p := by
  induction a generalizing b p with
  | nil => cases b <;> simp_all
  | cons x a ih =>
    cases b with
    | nil => simp at h
    | cons y b =>
      cases p with
      | nil => simp
      | cons z p =>
        simp only [List.length_cons, Nat.add_right_cancel_iff] at h
        simp only [List.zipWith_cons_cons, lc_cons, ih p h, hf]
        module

theorem lc_zipWith_right {f : M → M → M} {c d : F} (hf : ∀ x y, f x y = c • x + d • y)
    (a : List F) {p q : List M} (h : p.length = q.length) :
    lc a (List.zipWith f p q) = c • lc a p + d • lc a q := by
  induction a generalizing p q with
  | nil => simp
  | cons x a ih =>
    cases p with
    | nil => cases q <;> simp_all
    | cons y p =>
      cases q with
      | nil => simp at h
      | cons z q =>
        simp only [List.length_cons, Nat.add_right_cancel_iff] at h
        simp only [List.zipWith_cons_cons, lc_cons, ih h, hf]
        module

theorem lc_axpy (c : F) {a b : List F} (p : List M) (h : a.length = b.length) :
    lc (List.zipWith (fun x y => c * x + y) a b) p = c • lc a p + lc b p := by
  rw [lc_zipWith_left (c := c) (d := 1) (fun x y => by rw [one_mul]) p h, one_smul]

theorem lc_replicate_zero (n : Nat) (p : List M) : lc (List.replicate n (0 : F)) p = 0 := by
  induction n generalizing p with
  | zero => simp
  | succ n ih => cases p <;> simp [List.replicate_succ, ih]

theorem lc_zeros {a : List F} (h : ∀ x ∈ a, x = 0) (p : List M) : lc a p = 0 := by
  induction a generalizing p with
  | nil => simp
  | cons x a ih =>
    cases p with
    | nil => simp
    | cons y p =>
      have := h x (by simp)
      simp [this, ih (fun z hz => h z (by simp [hz]))]

theorem lc_take_right (a : List F) (p : List M) : lc a (p.take a.length) = lc a p := by
  induction a generalizing p with
  | nil => simp
  | cons x a ih => cases p <;> simp [ih]

theorem msm_eq {a : List F} {p : List M} (h : a.length ≤ p.length) : msm a p = .ok (lc a p) := by
  induction a generalizing p with
  | nil => simp [msm]
  | cons x a ih =>
    cases p with
    | nil => simp at h
    | cons y p => simp at h; simp [msm, ih h]

theorem msm_panic {a : List F} {p : List M} (h : p.length < a.length) :
    msm a p = .error .panic := by
  induction a generalizing p with
  | nil => simp at h
  | cons x a ih =>
    cases p with
    | nil => simp [msm]
    | cons y p => simp at h; simp [msm, ih h]

theorem msm_ok_iff {a : List F} {p : List M} {r : M} :
    msm a p = .ok r ↔ a.length ≤ p.length ∧ r = lc a p := by
  rcases Nat.lt_or_ge p.length a.length with h | h
  · simp [msm_panic h, Nat.not_le.mpr h]
  · simp [msm_eq h, h, eq_comm]

theorem dot_comm (a b : List F) : dot a b = dot b a := by
  unfold dot
  induction a generalizing b with
  | nil => simp
  | cons x a ih => cases b <;> simp [ih, mul_comm]

theorem dot_axpy (c : F) {a b : List F} (p : List F) (h : a.length = b.length) :
    dot (List.zipWith (fun x y => c * x + y) a b) p = c * dot a p + dot b p := lc_axpy c p h

theorem innerProduct_eq {a b : List F} (h : a.length = b.length) :
    innerProduct a b = .ok (dot a b) := by
  simp [innerProduct, check, h]

end alg

theorem check_true {b : Prop} {_ : Decidable b} (h : b) : check b = .ok () := by simp [check, h]
theorem check_false {b : Prop} {_ : Decidable b} (h : ¬ b) : check b = .error .panic := by
  simp [check, h]

@[simp] theorem check_ok_iff {b : Prop} {_ : Decidable b} {u : Unit} : check b = .ok u ↔ b := by
  by_cases h : b <;> simp [check, h]

/-- Inversion of a successful bind. -/
theorem bind_ok_iff {α β : Type} {x : Out α} {f : α → Out β} {b : β} :
    (x >>= f) = .ok b ↔ ∃ a, x = .ok a ∧ f a = .ok b := by
  cases x with
  | error e => simp [bind, Except.bind]
  | ok a => simp [bind, Except.bind]

@[simp] theorem ok_bind {α β : Type} (a : α) (f : α → Out β) : (Except.ok a >>= f) = f a := rfl
@[simp] theorem error_bind {α β : Type} (e : Fail) (f : α → Out β) :
    ((Except.error e : Out α) >>= f) = .error e := rfl
theorem pure_ok {α : Type} (a : α) : (pure a : Out α) = .ok a := rfl

section env
variable {F G P : Type}

@[simp] theorem unpack_compress {E : Env F G P} (hE : E.Lawful) (g : G) :
    E.unpack (E.compress g) = .ok g := by simp [Env.unpack, hE g]

@[simp] theorem decompressU_compress {E : Env F G P} (hE : E.Lawful) (g : G) :
    E.decompressU (E.compress g) = .ok g := by simp [Env.decompressU, hE]

theorem compress_inj {E : Env F G P} (hE : E.Lawful) {g g' : G} (h : E.compress g = E.compress g') :
    g = g' := by
  have := hE g; rw [h, hE] at this; exact (Option.some.inj this).symm

theorem compress_eq_iff {E : Env F G P} (hE : E.Lawful) {g g' : G} :
    E.compress g = E.compress g' ↔ g = g' := ⟨compress_inj hE, fun h => by rw [h]⟩

theorem unpack_ok_iff {E : Env F G P} {p : P} {g : G} :
    E.unpack p = .ok g ↔ E.decompress p = some g := by
  unfold Env.unpack; cases E.decompress p <;> simp

theorem decompressU_ok_iff {E : Env F G P} {p : P} {g : G} :
    E.decompressU p = .ok g ↔ E.decompress p = some g := by
  unfold Env.decompressU Env.unpack; cases E.decompress p <;> simp
end env

section gens
variable {F G : Type} [Field F] [AddCommGroup G] [Module F G]

/-- A well-formed basis: the field `n` is the number of generators. -/
def Gens.WF (g : Gens G) : Prop := g.n = g.G.length

/-- A single-generator basis `g0, h`. -/
def Gens.single (g0 h : G) : Gens G := { n := 1, G := [g0], h := h }

theorem commit1_single (x b : F) (g0 h : G) :
    commit1 x b (Gens.single g0 h) = .ok (x • g0 + b • h) := by
  simp [commit1, Gens.single, check, msm]

theorem commitV_eq {g : Gens G} {xs : List F} (hg : g.WF) (h : g.n = xs.length) (b : F) :
    commitV xs b g = .ok (lc xs g.G + b • g.h) := by
  have : xs.length ≤ g.G.length := by rw [← h, hg]
  simp [commitV, check, h, msm_eq this]

theorem commitV_ok_iff {g : Gens G} {xs : List F} {b : F} {r : G} (hg : g.WF) :
    commitV xs b g = .ok r ↔ g.n = xs.length ∧ r = lc xs g.G + b • g.h := by
  by_cases h : g.n = xs.length
  · simp [commitV_eq hg h, h, eq_comm]
  · simp [commitV, check, h]

end gens

section tape
variable {F : Type}
@[simp] theorem Tape.nextVec_length (t : Tape F) (n : Nat) : (t.nextVec n).1.length = n := by
  simp [Tape.nextVec]
end tape

end Spartan
