import Mathlib.Algebra.BigOperators.Group.Finset.Basic
import Mathlib.Algebra.BigOperators.Group.List.Basic
import Mathlib.Algebra.BigOperators.Ring.Finset
import Mathlib.Algebra.Order.BigOperators.Group.List
import Mathlib.Algebra.Field.Basic
import Mathlib.Tactic.Ring
import Mathlib.Tactic.LinearCombination

/-!
Relations on signals that rank-1 constraints can express: a calculus for showing that a template (a relation with
internal signals) has constraints, with a bound on their size.
-/

namespace Spartan.Rank1

variable {F : Type} [Field F] {ι κ : Type}

/-- A linear combination of signals; `none` is the signal that is one. -/
abbrev Lin (ι F : Type) := List (Option ι × F)

/-- Its value. -/
def Lin.val (l : Lin ι F) (x : ι → F) : F := (l.map fun t => t.1.elim 1 x * t.2).sum

theorem Lin.val_append (l m : Lin ι F) (x : ι → F) : Lin.val (l ++ m) x = l.val x + m.val x := by
  simp [Lin.val]

theorem Lin.val_nil (x : ι → F) : Lin.val ([] : Lin ι F) x = 0 := rfl

theorem Lin.val_cons (t : Option ι × F) (l : Lin ι F) (x : ι → F) :
    Lin.val (t :: l) x = t.1.elim 1 x * t.2 + l.val x := by
  simp [Lin.val]

/-- The same combination of other signals. -/
def Lin.ren (f : ι → κ) (l : Lin ι F) : Lin κ F := l.map fun t => (t.1.map f, t.2)

theorem Lin.val_ren (f : ι → κ) (l : Lin ι F) (x : κ → F) : (l.ren f).val x = l.val (fun i => x (f i)) := by
  induction l with
  | nil => rfl
  | cons t l ih =>
    obtain ⟨t, c⟩ := t
    change Lin.val ((t.map f, c) :: Lin.ren f l) x = _
    rw [Lin.val_cons, Lin.val_cons, ih]
    cases t <;> rfl

/-- `e` is an affine function of the signals with at most `n` terms. -/
def Aff (n : ℕ) (e : (ι → F) → F) : Prop := ∃ l : Lin ι F, l.length ≤ n ∧ ∀ x, e x = l.val x

namespace Aff

theorem mono {n m : ℕ} {e : (ι → F) → F} (h : Aff n e) (hm : n ≤ m) : Aff m e := by
  obtain ⟨l, h1, h2⟩ := h
  exact ⟨l, h1.trans hm, h2⟩

theorem const (c : F) : Aff 1 (fun _ : ι → F => c) := ⟨[(none, c)], le_rfl, fun x => by simp [Lin.val]⟩

theorem var (i : ι) : Aff 1 (fun x : ι → F => x i) := ⟨[(some i, 1)], le_rfl, fun x => by simp [Lin.val]⟩

theorem add {n m : ℕ} {a b : (ι → F) → F} (ha : Aff n a) (hb : Aff m b) : Aff (n + m) (fun x => a x + b x) := by
  obtain ⟨l, h1, h2⟩ := ha
  obtain ⟨k, h3, h4⟩ := hb
  exact ⟨l ++ k, by rw [List.length_append]; omega, fun x => by beta_reduce; rw [Lin.val_append, h2, h4]⟩

theorem mulConst {n : ℕ} {a : (ι → F) → F} (ha : Aff n a) (c : F) : Aff n (fun x => a x * c) := by
  obtain ⟨l, h1, h2⟩ := ha
  refine ⟨l.map fun t => (t.1, t.2 * c), by simpa using h1, fun x => ?_⟩
  beta_reduce
  rw [h2]
  clear h1 h2
  induction l with
  | nil => simp [Lin.val]
  | cons t l ih => rw [List.map_cons, Lin.val_cons, Lin.val_cons, add_mul, ih]; ring

theorem constMul {n : ℕ} {a : (ι → F) → F} (ha : Aff n a) (c : F) : Aff n (fun x => c * a x) := by
  have := ha.mulConst c
  simpa only [mul_comm c] using this

theorem neg {n : ℕ} {a : (ι → F) → F} (ha : Aff n a) : Aff n (fun x => -a x) := by
  have := ha.mulConst (-1)
  simpa only [mul_neg, mul_one] using this

theorem sub {n m : ℕ} {a b : (ι → F) → F} (ha : Aff n a) (hb : Aff m b) : Aff (n + m) (fun x => a x - b x) := by
  have := ha.add hb.neg
  simpa only [sub_eq_add_neg] using this

theorem sum {n : ℕ} {a : ℕ → (ι → F) → F} (k : ℕ) (ha : ∀ i < k, Aff n (a i)) :
    Aff (k * n) (fun x => ∑ i ∈ Finset.range k, a i x) := by
  induction k with
  | zero => exact ⟨[], by simp, fun x => by simp [Lin.val]⟩
  | succ k ih =>
    simp only [Finset.sum_range_succ]
    exact ((ih fun i hi => ha i (by omega)).add (ha k (by omega))).mono (by rw [Nat.succ_mul])

theorem comp {n : ℕ} {a : (ι → F) → F} (ha : Aff n a) (f : ι → κ) : Aff n (fun x : κ → F => a (fun i => x (f i))) := by
  obtain ⟨l, h1, h2⟩ := ha
  exact ⟨l.ren f, by simpa [Lin.ren] using h1, fun x => by beta_reduce; rw [Lin.val_ren, h2]⟩

theorem ite {n m : ℕ} {a b : (ι → F) → F} (p : Prop) [Decidable p] (ha : Aff n a) (hb : Aff m b) :
    Aff (max n m) (fun x => if p then a x else b x) := by
  by_cases hp : p
  · simp only [hp, if_true]; exact ha.mono (le_max_left _ _)
  · simp only [hp, if_false]; exact hb.mono (le_max_right _ _)

end Aff

/-- `e` is a product of affine functions plus an affine function, with at most `n` terms in all. -/
def Quad (n : ℕ) (e : (ι → F) → F) : Prop :=
  ∃ na nb nc a b c, Aff na a ∧ Aff nb b ∧ Aff nc c ∧ na + nb + nc ≤ n ∧ ∀ x : ι → F, e x = a x * b x + c x

namespace Quad

theorem mono {n m : ℕ} {e : (ι → F) → F} (h : Quad n e) (hm : n ≤ m) : Quad m e := by
  obtain ⟨p, q, r, u, v, w, h1, h2, h3, h4, h5⟩ := h
  exact ⟨p, q, r, u, v, w, h1, h2, h3, h4.trans hm, h5⟩

theorem mul {n m : ℕ} {a b : (ι → F) → F} (ha : Aff n a) (hb : Aff m b) : Quad (n + m) (fun x => a x * b x) :=
  ⟨n, m, 0, a, b, fun _ => 0, ha, hb, ⟨[], le_rfl, fun _ => rfl⟩, le_rfl, fun x => by simp⟩

theorem add {n m : ℕ} {a b : (ι → F) → F} (ha : Quad n a) (hb : Aff m b) : Quad (n + m) (fun x => a x + b x) := by
  obtain ⟨p, q, r, u, v, w, h1, h2, h3, h4, h5⟩ := ha
  exact ⟨p, q, r + m, u, v, _, h1, h2, h3.add hb, by omega, fun x => by beta_reduce; rw [h5]; ring⟩

theorem sub {n m : ℕ} {a b : (ι → F) → F} (ha : Quad n a) (hb : Aff m b) : Quad (n + m) (fun x => a x - b x) := by
  have := ha.add hb.neg
  simpa only [sub_eq_add_neg] using this

theorem radd {n m : ℕ} {a b : (ι → F) → F} (hb : Aff m b) (ha : Quad n a) : Quad (m + n) (fun x => b x + a x) := by
  have := ha.add hb
  rw [add_comm m]
  simpa only [add_comm] using this

theorem rsub {n m : ℕ} {a b : (ι → F) → F} (hb : Aff m b) (ha : Quad n a) : Quad (m + n) (fun x => b x - a x) := by
  obtain ⟨p, q, r, u, v, w, h1, h2, h3, h4, h5⟩ := ha
  exact ⟨p, q, m + r, _, v, _, h1.neg, h2, hb.sub h3, by omega, fun x => by beta_reduce; rw [h5]; ring⟩

end Quad

/-- A rank-1 constraint. -/
structure Con (ι F : Type) where
  a : Lin ι F
  b : Lin ι F
  c : Lin ι F

/-- It holds of the values `x`. -/
def Con.Holds (k : Con ι F) (x : ι → F) : Prop := k.a.val x * k.b.val x = k.c.val x

/-- One more than the number of terms. -/
def Con.size (k : Con ι F) : ℕ := k.a.length + k.b.length + k.c.length + 1

/-- The same constraint on other signals. -/
def Con.ren (f : ι → κ) (k : Con ι F) : Con κ F := ⟨k.a.ren f, k.b.ren f, k.c.ren f⟩

theorem Con.holds_ren (f : ι → κ) (k : Con ι F) (x : κ → F) : (k.ren f).Holds x ↔ k.Holds (fun i => x (f i)) := by
  simp only [Con.Holds, Con.ren, Lin.val_ren]

theorem Con.size_ren (f : ι → κ) (k : Con ι F) : (k.ren f).size = k.size := by
  simp only [Con.size, Con.ren, Lin.ren, List.length_map]

/-- Constraints, some internal signals `κ` and at most `n` terms say what `R` says. -/
def R1 (n : ℕ) (R : (ι → F) → Prop) : Prop :=
  ∃ (κ : Type) (cs : List (Con (ι ⊕ κ) F)), (cs.map Con.size).sum ≤ n ∧
    ∀ x, R x ↔ ∃ y : κ → F, ∀ c ∈ cs, c.Holds (Sum.elim x y)

namespace R1

theorem mono {n m : ℕ} {R : (ι → F) → Prop} (h : R1 n R) (hm : n ≤ m) : R1 m R := by
  obtain ⟨κ, cs, h1, h2⟩ := h
  exact ⟨κ, cs, h1.trans hm, h2⟩

theorem congr {n : ℕ} {R S : (ι → F) → Prop} (h : R1 n R) (he : ∀ x, S x ↔ R x) : R1 n S := by
  obtain ⟨κ, cs, h1, h2⟩ := h
  exact ⟨κ, cs, h1, fun x => (he x).trans (h2 x)⟩

theorem mulEq {p q r : ℕ} {a b c : (ι → F) → F} (ha : Aff p a) (hb : Aff q b) (hc : Aff r c) :
    R1 (p + q + r + 1) (fun x => a x * b x = c x) := by
  obtain ⟨l, h1, h2⟩ := ha.comp (κ := ι ⊕ Empty) Sum.inl
  obtain ⟨m, h3, h4⟩ := hb.comp (κ := ι ⊕ Empty) Sum.inl
  obtain ⟨k, h5, h6⟩ := hc.comp (κ := ι ⊕ Empty) Sum.inl
  refine ⟨Empty, [⟨l, m, k⟩], by simp [Con.size]; omega, fun x => ?_⟩
  have e : ∀ y : Empty → F, (⟨l, m, k⟩ : Con (ι ⊕ Empty) F).Holds (Sum.elim x y) ↔ a x * b x = c x := by
    intro y
    unfold Con.Holds
    simp only [← h2, ← h4, ← h6]
    rfl
  constructor
  · intro h
    exact ⟨Empty.elim, by simpa [e] using h⟩
  · rintro ⟨y, h⟩
    exact (e y).1 (h _ (by simp))

theorem eqQuad {n m : ℕ} {a b : (ι → F) → F} (ha : Aff n a) (hb : Quad m b) :
    R1 (n + m + 1) (fun x => a x = b x) := by
  obtain ⟨p, q, r, u, v, w, h1, h2, h3, h4, h5⟩ := hb
  refine ((mulEq h1 h2 (ha.sub h3)).mono (by omega)).congr fun x => ?_
  rw [h5]
  constructor <;> intro h <;> linear_combination -h

theorem quadEq {n m : ℕ} {a b : (ι → F) → F} (ha : Quad n a) (hb : Aff m b) :
    R1 (n + m + 1) (fun x => a x = b x) :=
  ((eqQuad hb ha).mono (by omega)).congr fun _ => eq_comm

theorem affEq {n m : ℕ} {a b : (ι → F) → F} (ha : Aff n a) (hb : Aff m b) :
    R1 (n + m + 2) (fun x => a x = b x) :=
  ((mulEq ha (Aff.const 1) hb).mono (by omega)).congr fun _ => by rw [mul_one]

theorem true : R1 0 (fun _ : ι → F => True) :=
  ⟨Empty, [], le_rfl, fun _ => ⟨fun _ => ⟨Empty.elim, by simp⟩, fun _ => trivial⟩⟩

theorem and {n m : ℕ} {R S : (ι → F) → Prop} (hR : R1 n R) (hS : R1 m S) : R1 (n + m) (fun x => R x ∧ S x) := by
  obtain ⟨κ, cs, h1, h2⟩ := hR
  obtain ⟨μ, ds, h3, h4⟩ := hS
  refine ⟨κ ⊕ μ, cs.map (Con.ren (Sum.map id Sum.inl)) ++ ds.map (Con.ren (Sum.map id Sum.inr)), ?_, fun x => ?_⟩
  · rw [List.map_append, List.sum_append, List.map_map, List.map_map]
    have e : ∀ {α β : Type} (f : α → β), Con.size ∘ Con.ren (F := F) f = Con.size :=
      fun f => funext fun k => Con.size_ren f k
    rw [e, e]
    omega
  · beta_reduce
    rw [h2, h4]
    have e1 : ∀ (y : κ ⊕ μ → F), (fun i => Sum.elim x y (Sum.map id Sum.inl i)) = Sum.elim x (fun k => y (Sum.inl k)) := by
      intro y; funext i; cases i <;> rfl
    have e2 : ∀ (y : κ ⊕ μ → F), (fun i => Sum.elim x y (Sum.map id Sum.inr i)) = Sum.elim x (fun k => y (Sum.inr k)) := by
      intro y; funext i; cases i <;> rfl
    constructor
    · rintro ⟨⟨y, hy⟩, z, hz⟩
      refine ⟨Sum.elim y z, fun c hc => ?_⟩
      rcases List.mem_append.1 hc with hc | hc <;> obtain ⟨k, hk, rfl⟩ := List.mem_map.1 hc <;> rw [Con.holds_ren]
      · rw [e1]; exact hy k hk
      · rw [e2]; exact hz k hk
    · rintro ⟨y, hy⟩
      refine ⟨⟨fun k => y (.inl k), fun c hc => ?_⟩, fun k => y (.inr k), fun c hc => ?_⟩
      · have := hy _ (List.mem_append_left _ (List.mem_map_of_mem hc))
        rwa [Con.holds_ren, e1] at this
      · have := hy _ (List.mem_append_right _ (List.mem_map_of_mem hc))
        rwa [Con.holds_ren, e2] at this

theorem ex {n : ℕ} {R : (ι → F) → (κ → F) → Prop}
    (h : R1 n (fun x : ι ⊕ κ → F => R (fun i => x (.inl i)) (fun k => x (.inr k)))) :
    R1 n (fun x => ∃ y, R x y) := by
  obtain ⟨μ, cs, h1, h2⟩ := h
  let f : (ι ⊕ κ) ⊕ μ → ι ⊕ (κ ⊕ μ) := fun i => (Equiv.sumAssoc ι κ μ) i
  have e : ∀ (x : ι → F) (y : κ ⊕ μ → F), (fun i => Sum.elim x y (f i)) =
      Sum.elim (Sum.elim x (fun k => y (.inl k))) (fun k => y (.inr k)) := by
    intro x y; funext i; rcases i with (i | i) | i <;> rfl
  refine ⟨κ ⊕ μ, cs.map (Con.ren f), ?_, fun x => ?_⟩
  · rw [List.map_map, show Con.size ∘ Con.ren (F := F) f = Con.size from funext fun k => Con.size_ren f k]
    exact h1
  constructor
  · rintro ⟨y, hy⟩
    obtain ⟨z, hz⟩ := (h2 (Sum.elim x y)).1 hy
    refine ⟨Sum.elim y z, fun c hc => ?_⟩
    obtain ⟨k, hk, rfl⟩ := List.mem_map.1 hc
    rw [Con.holds_ren, e]
    exact hz k hk
  · rintro ⟨y, hy⟩
    refine ⟨fun k => y (.inl k), (h2 (Sum.elim x fun k => y (.inl k))).2 ⟨fun k => y (.inr k), fun c hc => ?_⟩⟩
    have := hy _ (List.mem_map_of_mem hc)
    rwa [Con.holds_ren, e] at this

theorem ex1 {n : ℕ} {R : (ι → F) → F → Prop}
    (h : R1 n (fun x : ι ⊕ Unit → F => R (fun i => x (.inl i)) (x (.inr ())))) : R1 n (fun x => ∃ y, R x y) :=
  (ex (κ := Unit) (R := fun x y => R x (y ())) h).congr fun x =>
    ⟨fun ⟨y, h⟩ => ⟨fun _ => y, h⟩, fun ⟨y, h⟩ => ⟨y (), h⟩⟩

theorem ex2 {n : ℕ} {R : (ι → F) → (ℕ → ℕ → F) → Prop}
    (h : R1 n (fun x : ι ⊕ (ℕ × ℕ) → F => R (fun i => x (.inl i)) (fun i j => x (.inr (i, j))))) :
    R1 n (fun x => ∃ y, R x y) :=
  (ex (κ := ℕ × ℕ) (R := fun x y => R x (fun i j => y (i, j))) h).congr fun x =>
    ⟨fun ⟨y, h⟩ => ⟨fun p => y p.1 p.2, h⟩, fun ⟨y, h⟩ => ⟨fun i j => y (i, j), h⟩⟩

/-- An internal signal for a product. -/
theorem tmp {n m : ℕ} {e : (ι → F) → F} (R : (ι → F) → F → Prop) (he : Quad m e)
    (h : R1 n (fun x : ι ⊕ Unit → F => R (fun i => x (.inl i)) (x (.inr ())))) :
    R1 (m + 2 + n) (fun x => R x (e x)) := by
  have h1 : R1 (m + 2) (fun x : ι ⊕ Unit → F => x (.inr ()) = e (fun i => x (.inl i))) := by
    obtain ⟨p, q, r, u, v, w, h1, h2, h3, h4, h5⟩ := he
    exact (eqQuad (Aff.var _) ⟨p, q, r, _, _, _, h1.comp _, h2.comp _, h3.comp _, h4, fun x => h5 _⟩).mono (by omega)
  refine (ex1 (R := fun x y => y = e x ∧ R x y) (h1.and h)).congr fun x => ?_
  exact ⟨fun h => ⟨_, rfl, h⟩, fun ⟨_, rfl, h⟩ => h⟩

theorem forallLt {n k : ℕ} {R : ℕ → (ι → F) → Prop} (h : ∀ i < k, R1 n (R i)) :
    R1 (k * n) (fun x => ∀ i < k, R i x) := by
  induction k with
  | zero => exact (true.mono (Nat.zero_le _)).congr fun x => by simp
  | succ k ih =>
    refine (((ih fun i hi => h i (by omega)).and (h k (by omega))).mono (by rw [Nat.succ_mul])).congr fun x => ?_
    exact Nat.forall_lt_succ_right

theorem forallMem {α : Type} {n : ℕ} {R : α → (ι → F) → Prop} (l : List α) (h : ∀ i ∈ l, R1 n (R i)) :
    R1 (l.length * n) (fun x => ∀ i ∈ l, R i x) := by
  induction l with
  | nil => exact (true.mono (Nat.zero_le _)).congr fun x => by simp
  | cons a l ih =>
    refine (((ih fun i hi => h i (by simp [hi])).and (h a (by simp))).mono
      (by rw [List.length_cons, Nat.succ_mul])).congr fun x => ?_
    simp [and_comm]

theorem imp {n : ℕ} {p : Prop} {R : (ι → F) → Prop} (h : p → R1 n R) : R1 n (fun x => p → R x) := by
  by_cases hp : p
  · exact (h hp).congr fun x => by simp [hp]
  · exact (true.mono (Nat.zero_le _)).congr fun x => by simp [hp]

theorem forallRange {n lo hi : ℕ} {R : ℕ → (ι → F) → Prop} (h : ∀ i, lo ≤ i → i < hi → R1 n (R i)) :
    R1 (hi * n) (fun x => ∀ i, lo ≤ i → i < hi → R i x) :=
  (forallLt (k := hi) (R := fun i x => lo ≤ i → R i x) fun i h2 => imp fun h1 => h i h1 h2).congr fun x =>
    ⟨fun h i h2 h1 => h i h1 h2, fun h i h1 h2 => h i h2 h1⟩

theorem comp {n : ℕ} {R : (ι → F) → Prop} (h : R1 n R) (f : ι → κ) : R1 n (fun x : κ → F => R fun i => x (f i)) := by
  obtain ⟨μ, cs, h1, h2⟩ := h
  refine ⟨μ, cs.map (Con.ren (Sum.map f id)), ?_, fun x => ?_⟩
  · rw [List.map_map, show Con.size ∘ Con.ren (F := F) (Sum.map f (id : μ → μ)) = Con.size from
      funext fun k => Con.size_ren _ k]
    exact h1
  beta_reduce
  rw [h2]
  have e : ∀ y : μ → F, (fun i => Sum.elim x y (Sum.map f id i)) = Sum.elim (fun i => x (f i)) y := by
    intro y; funext i; cases i <;> rfl
  simp only [List.mem_map, forall_exists_index, and_imp, forall_apply_eq_imp_iff₂, Con.holds_ren, e]

end R1

/-! ### Numbered wires -/

/-- The value of a linear combination over numbered wires. -/
def numVal (l : List (ℕ × F)) (w : List F) : F := (l.map fun t => w.getD t.1 0 * t.2).sum

/-- A relation that rank-1 constraints can express has constraints over numbered wires: wire 0 is one, then come
the signals `x`, then the internal signals. -/
theorem R1.number {m n : ℕ} {R : (Fin m → F) → Prop} (h : R1 n R) :
    ∃ (k : ℕ) (cs : List (List (ℕ × F) × List (ℕ × F) × List (ℕ × F))), k ≤ n ∧ cs.length ≤ n ∧
      (cs.map fun c => c.1.length + c.2.1.length + c.2.2.length).sum ≤ n ∧
      (∀ c ∈ cs, ∀ t ∈ c.1 ++ c.2.1 ++ c.2.2, t.1 < 1 + m + k) ∧
      ∀ x, R x ↔ ∃ y : List F, y.length = k ∧ ∀ c ∈ cs,
        numVal c.1 (1 :: (List.ofFn x ++ y)) * numVal c.2.1 (1 :: (List.ofFn x ++ y)) =
          numVal c.2.2 (1 :: (List.ofFn x ++ y)) := by
  classical
  obtain ⟨κ, cs, h1, h2⟩ := h
  -- the internal signals that occur
  let aux : Lin (Fin m ⊕ κ) F → List κ := fun l => l.filterMap fun t => t.1.bind Sum.getRight?
  let L : List κ := cs.flatMap fun c => aux c.a ++ aux c.b ++ aux c.c
  let num : Option (Fin m ⊕ κ) → ℕ := fun o => o.elim 0 (Sum.elim (fun i => 1 + i) (fun k => 1 + m + L.idxOf k))
  let tr : Lin (Fin m ⊕ κ) F → List (ℕ × F) := fun l => l.map fun t => (num t.1, t.2)
  have auxLen : ∀ l, (aux l).length ≤ l.length := fun l => List.length_filterMap_le _ _
  have trLen : ∀ l, (tr l).length = l.length := fun l => by simp [tr]
  have hL : L.length ≤ n := by
    refine le_trans ?_ h1
    simp only [L, List.length_flatMap]
    refine List.sum_le_sum fun c _ => ?_
    have := auxLen c.a
    have := auxLen c.b
    have := auxLen c.c
    simp only [List.length_append, Con.size]
    omega
  have memL : ∀ c ∈ cs, ∀ t ∈ c.a ++ c.b ++ c.c, ∀ k, t.1 = some (.inr k) → k ∈ L := by
    intro c hc t ht k hk
    refine List.mem_flatMap.2 ⟨c, hc, ?_⟩
    simp only [aux, ← List.filterMap_append]
    exact List.mem_filterMap.2 ⟨t, ht, by rw [hk]; rfl⟩
  have numLt : ∀ c ∈ cs, ∀ t ∈ c.a ++ c.b ++ c.c, num t.1 < 1 + m + L.length := by
    intro c hc t ht
    rcases e : t.1 with _ | i | k
    · simp [num]
    · have := i.2
      simp [num]; omega
    · have := List.idxOf_lt_length_of_mem (memL c hc t ht k e)
      simp [num]; omega
  have valEq : ∀ (x : Fin m → F) (y : κ → F) (ys : List F), (∀ k ∈ L, ys.getD (L.idxOf k) 0 = y k) →
      ∀ c ∈ cs, ∀ l, (∀ t ∈ l, t ∈ c.a ++ c.b ++ c.c) →
      numVal (tr l) (1 :: (List.ofFn x ++ ys)) = l.val (Sum.elim x y) := by
    intro x y ys hy c hc l hl
    simp only [numVal, Lin.val, tr, List.map_map]
    congr 1
    refine List.map_congr_left fun t ht => ?_
    simp only [Function.comp_apply]
    congr 1
    rcases e : t.1 with _ | i | k
    · rfl
    · change List.getD (1 :: (List.ofFn x ++ ys)) (1 + i) 0 = x i
      rw [add_comm, List.getD_cons_succ, List.getD_eq_getElem?_getD, List.getElem?_append_left (by simp)]
      simp
    · change List.getD (1 :: (List.ofFn x ++ ys)) (1 + m + L.idxOf k) 0 = y k
      rw [add_assoc, add_comm 1, List.getD_cons_succ, List.getD_eq_getElem?_getD, List.getElem?_append_right (by simp),
        List.length_ofFn, Nat.add_sub_cancel_left, ← List.getD_eq_getElem?_getD]
      exact hy k (memL c hc t (hl t ht) k e)
  refine ⟨L.length, cs.map fun c => (tr c.a, tr c.b, tr c.c), hL, ?_, ?_, ?_, fun x => ?_⟩
  · rw [List.length_map]
    refine le_trans ?_ h1
    rw [← List.length_map (as := cs) (f := Con.size)]
    exact List.length_le_sum_of_one_le _ fun i hi => by
      obtain ⟨c, -, rfl⟩ := List.mem_map.1 hi
      simp [Con.size]
  · refine le_trans ?_ h1
    rw [List.map_map]
    refine List.sum_le_sum fun c _ => ?_
    simp only [Function.comp_apply, trLen, Con.size]
    omega
  · intro c hc t ht
    obtain ⟨k, hk, rfl⟩ := List.mem_map.1 hc
    simp only [tr, ← List.map_append] at ht
    obtain ⟨u, hu, rfl⟩ := List.mem_map.1 ht
    exact numLt k hk u hu
  · rw [h2]
    have key : ∀ (y : κ → F) (ys : List F), (∀ k ∈ L, ys.getD (L.idxOf k) 0 = y k) →
        ((∀ c ∈ cs, c.Holds (Sum.elim x y)) ↔ ∀ c ∈ cs.map fun c => (tr c.a, tr c.b, tr c.c),
          numVal c.1 (1 :: (List.ofFn x ++ ys)) * numVal c.2.1 (1 :: (List.ofFn x ++ ys)) =
            numVal c.2.2 (1 :: (List.ofFn x ++ ys))) := by
      intro y ys hy
      simp only [List.mem_map, forall_exists_index, and_imp, forall_apply_eq_imp_iff₂]
      refine forall₂_congr fun c hc => ?_
      rw [valEq x y ys hy c hc _ (by simp +contextual), valEq x y ys hy c hc _ (by simp +contextual),
        valEq x y ys hy c hc _ (by simp +contextual)]
      rfl
    constructor
    · rintro ⟨y, hy⟩
      refine ⟨L.map y, by simp, (key y _ fun k hk => ?_).1 hy⟩
      have := List.idxOf_lt_length_of_mem hk
      rw [List.getD_eq_getElem?_getD, List.getElem?_map, List.getElem?_eq_getElem this]
      simp
    · rintro ⟨ys, -, hy⟩
      exact ⟨fun k => ys.getD (L.idxOf k) 0, (key _ ys fun k _ => rfl).2 hy⟩

end Spartan.Rank1
