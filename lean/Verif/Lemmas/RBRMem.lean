import Verif.Lemmas.Rounds
import Verif.Props.Memory

/-! Unfavourable challenges of the offline memory check, one challenge at a time. -/

set_option linter.unusedSectionVars false

namespace Spartan
open Spec Polynomial
variable {F : Type} [Field F] [DecidableEq F]

/-- The hash of an access. -/
def accHash (r : F) (x : F × F × F) : F := x.2.2 * r ^ 2 + x.2.1 * r + x.1

/-- First challenge: the hashes identify two different multisets. -/
def hashBad1 (S S' : Multiset (F × F × F)) : Set F :=
  {r | S ≠ S' ∧ S.map (accHash r) = S'.map (accHash r)}

/-- Second challenge: the products of two different multisets of hashes agree. -/
def hashBad2 (S S' : Multiset (F × F × F)) (r : F) : Set F :=
  {g | S.map (accHash r) ≠ S'.map (accHash r) ∧ hashProd r g S = hashProd r g S'}

theorem hashBad1_small {S S' : Multiset (F × F × F)} {N : Nat} (h1 : S.card = N) (h2 : S'.card = N) :
    AtMost (2 * N) (hashBad1 S S') := by
  by_cases hne : S = S'
  · exact (AtMost.empty _).mono le_rfl fun r hr => absurd hne hr.1
  set P : Multiset (F × F × F) → F[X][X] := fun S => ((S.map hashPoly).map fun p => X - C p).prod with hP
  have hPne : P S ≠ P S' := by
    intro h
    have := congrArg roots h
    rw [hP] at this
    simp only [roots_multiset_prod_X_sub_C] at this
    exact hne (Multiset.map_injective hashPoly_inj this)
  obtain ⟨k, hk⟩ : ∃ k, (P S - P S').coeff k ≠ 0 := by
    by_contra h
    push Not at h
    exact hPne (sub_eq_zero.1 (Polynomial.ext fun k => by rw [h k, coeff_zero]))
  refine AtMost.roots hk ?_ ?_
  · rw [coeff_sub]
    refine (natDegree_sub_le _ _).trans (max_le ?_ ?_)
    · have := coeff_prod_natDegree (S.map hashPoly) (by
        intro p hp; obtain ⟨x, -, rfl⟩ := Multiset.mem_map.1 hp; exact hashPoly_natDegree x) k
      rwa [Multiset.card_map, h1] at this
    · have := coeff_prod_natDegree (S'.map hashPoly) (by
        intro p hp; obtain ⟨x, -, rfl⟩ := Multiset.mem_map.1 hp; exact hashPoly_natDegree x) k
      rwa [Multiset.card_map, h2] at this
  · rintro r ⟨-, hr⟩
    have hmapP : ∀ S : Multiset (F × F × F), (P S).map (evalRingHom r) =
        ((S.map (accHash r)).map fun y => X - C y).prod := by
      intro S
      rw [hP]
      simp only
      rw [Polynomial.map_multiset_prod, Multiset.map_map, Multiset.map_map, Multiset.map_map]
      congr 1
      apply Multiset.map_congr rfl
      intro x _
      simp [hashPoly, accHash]
    have e : (P S).map (evalRingHom r) = (P S').map (evalRingHom r) := by rw [hmapP, hmapP, hr]
    have := congrArg (fun p => coeff p k) e
    simp only [coeff_map, coe_evalRingHom] at this
    rw [coeff_sub, eval_sub, this, sub_self]

theorem hashProd_eval (S : Multiset (F × F × F)) (r g : F) : hashProd r g S =
    (-1) ^ S.card * (((S.map (accHash r)).map fun y => X - C y).prod).eval g := by
  induction S using Multiset.induction_on with
  | empty => simp [hashProd]
  | cons x S ih =>
    unfold hashProd at ih ⊢
    rw [Multiset.map_cons, Multiset.prod_cons, Multiset.map_cons, Multiset.map_cons, Multiset.prod_cons, ih,
      Multiset.card_cons, eval_mul, pow_succ]
    simp [accHash]
    ring

theorem hashBad2_small {S S' : Multiset (F × F × F)} {N : Nat} (h1 : S.card = N) (h2 : S'.card = N) (r : F) :
    AtMost N (hashBad2 S S' r) := by
  by_cases hne : S.map (accHash r) = S'.map (accHash r)
  · exact (AtMost.empty _).mono le_rfl fun g hg => absurd hne hg.1
  refine AtMost.roots (q := ((S.map (accHash r)).map fun y => X - C y).prod -
    ((S'.map (accHash r)).map fun y => X - C y).prod) ?_ ?_ ?_
  · intro h
    have := congrArg roots (sub_eq_zero.1 h)
    simp only [roots_multiset_prod_X_sub_C] at this
    exact hne this
  · have hd : ∀ T : Multiset F, ((T.map fun y => X - C y).prod).natDegree ≤ T.card := by
      intro T
      rw [natDegree_multiset_prod_X_sub_C_eq_card]
    refine (natDegree_sub_le _ _).trans (max_le ?_ ?_)
    · refine (hd _).trans (by rw [Multiset.card_map, h1])
    · refine (hd _).trans (by rw [Multiset.card_map, h2])
  · rintro g ⟨-, hg⟩
    rw [hashProd_eval, hashProd_eval, h1, h2] at hg
    rw [eval_sub, sub_eq_zero]
    exact mul_left_cancel₀ (pow_ne_zero _ (neg_ne_zero.2 one_ne_zero)) hg

/-! ### the two multisets of one memory -/

/-- Initial cells and writes. -/
def wSide (mem : List F) (A V T : List (List F)) : Multiset (F × F × F) :=
  initSet mem + writeSet A.flatten V.flatten T.flatten

/-- Reads and final cells. -/
def rSide (mem : List F) (A V T : List (List F)) (u : List F) : Multiset (F × F × F) :=
  readSet A.flatten V.flatten T.flatten + cellSet mem u

theorem cellSet_card (mem u : List F) : (cellSet mem u).card = mem.length := by simp [cellSet]

theorem readSet_card {A V T : List F} (hV : V.length = A.length) (hT : T.length = A.length) :
    (readSet A V T).card = A.length := by simp [readSet, hV, hT]

theorem wSide_card {mem : List F} {A V T : List (List F)} (hV : V.flatten.length = A.flatten.length)
    (hT : T.flatten.length = A.flatten.length) :
    (wSide mem A V T).card = A.flatten.length + mem.length := by
  rw [wSide, Multiset.card_add, initSet, cellSet_card, writeSet, Multiset.card_map, readSet_card hV hT, add_comm]

theorem rSide_card {mem u : List F} {A V T : List (List F)} (hV : V.flatten.length = A.flatten.length)
    (hT : T.flatten.length = A.flatten.length) :
    (rSide mem A V T u).card = A.flatten.length + mem.length := by
  rw [rSide, Multiset.card_add, cellSet_card, readSet_card hV hT]

theorem hashProd_add (r g : F) (S S' : Multiset (F × F × F)) :
    hashProd r g (S + S') = hashProd r g S * hashProd r g S' := by
  unfold hashProd; rw [Multiset.map_add, Multiset.prod_add]

theorem cellT_prod (r g : F) (mem u : List F) : (cellT r g mem u).prod = hashProd r g (cellSet mem u) := by
  unfold hashProd cellSet cellT
  rw [Multiset.map_coe, Multiset.prod_coe, List.map_map]
  congr 2
  funext i
  simp only [Function.comp, memHash]; ring

theorem cellT_prod_init (r g : F) (mem : List F) (n : Nat) :
    (cellT r g mem (List.replicate n 0)).prod = hashProd r g (initSet mem) := by
  rw [cellT_prod, initSet_eq mem n]

theorem opsT_prod (r g : F) {A V T : List F} (hV : V.length = A.length) (hT : T.length = A.length) :
    (opsT r g A V T).prod = hashProd r g (readSet A V T) := by
  unfold hashProd readSet
  rw [Multiset.map_coe, Multiset.prod_coe]
  congr 1
  unfold opsT
  apply List.ext_getElem
  · simp [hV, hT]
  · intro i h1 h2
    have hi : i < A.length := by simpa using h1
    have hi2 : i < V.length := by omega
    have hi3 : i < T.length := by omega
    simp only [memHash, List.getElem_map, List.getElem_range, List.getElem_zip, List.getD_eq_getElem _ _ hi,
      List.getD_eq_getElem _ _ hi2, List.getD_eq_getElem _ _ hi3]
    ring

theorem writeSet_eq (A V T : List F) : writeSet A V T = readSet A V (T.map (· + 1)) := by
  unfold writeSet readSet
  rw [Multiset.map_coe]
  congr 1
  apply List.ext_getElem
  · simp
  · intro i h1 h2
    simp

theorem rwTabs_prod (r g : F) (s : F) {n : Nat} : ∀ {A V T : List (List F)}, V.length = A.length →
    T.length = A.length → (∀ a ∈ A, a.length = n) → (∀ a ∈ V, a.length = n) → (∀ a ∈ T, a.length = n) →
    ((rwTabs r g s A V T).map List.prod).prod =
      hashProd r g (readSet A.flatten V.flatten (T.flatten.map (· + s)))
  | [], V, T, _, _, _, _, _ => by simp [rwTabs, hashProd, readSet]
  | a :: A, [], T, h, _, _, _, _ => by simp at h
  | a :: A, v :: V, [], _, h, _, _, _ => by simp at h
  | a :: A, v :: V, t :: T, hV, hT, ha, hv, ht => by
    have e : rwTabs r g s (a :: A) (v :: V) (t :: T) = opsT r g a v (t.map (· + s)) :: rwTabs r g s A V T := by
      unfold rwTabs
      rw [List.length_cons, List.range_succ_eq_map, List.map_cons, List.map_map]
      rfl
    have l1 := ha a (by simp)
    have l2 := hv v (by simp)
    have l3 := ht t (by simp)
    rw [e, List.map_cons, List.prod_cons, rwTabs_prod r g s (by simpa using hV) (by simpa using hT)
      (fun x hx => ha x (by simp [hx])) (fun x hx => hv x (by simp [hx])) (fun x hx => ht x (by simp [hx])),
      opsT_prod r g (by rw [l1, l2]) (by simp [l1, l3]), ← hashProd_add]
    congr 1
    simp only [List.flatten_cons, List.map_append]
    rw [readSet_append (by rw [l1, l2]) (by simp [l1, l3])]

/-- The product equation of the verifier, for the hashed tables, and challenges outside the two
unfavourable sets: every looked-up value is the content of the cell. -/
theorem mem_sound {m n : Nat} {mem : List F} (hm : mem.length = 2 ^ m) {ops : List (List Nat)}
    {V T : List (List F)} {u : List F} (hV : V.length = ops.length) (hT : T.length = ops.length)
    (ho : ∀ o ∈ ops, o.length = 2 ^ n) (hv : ∀ o ∈ V, o.length = 2 ^ n) (ht : ∀ o ∈ T, o.length = 2 ^ n)
    (hb : ∀ o ∈ ops, ∀ a ∈ o, a < 2 ^ m)
    (hchar : ∀ k : Nat, 0 < k → k ≤ ops.length * 2 ^ n + 2 ^ m → (k : F) ≠ 0) {r g : F}
    (h1 : r ∉ hashBad1 (wSide mem (ops.map fun o => o.map fun (x : Nat) => (x : F)) V T)
      (rSide mem (ops.map fun o => o.map fun (x : Nat) => (x : F)) V T u))
    (h2 : g ∉ hashBad2 (wSide mem (ops.map fun o => o.map fun (x : Nat) => (x : F)) V T)
      (rSide mem (ops.map fun o => o.map fun (x : Nat) => (x : F)) V T u) r)
    (heq : (cellT r g mem (List.replicate (2 ^ m) 0)).prod *
        ((rwTabs r g 1 (ops.map fun o => o.map fun (x : Nat) => (x : F)) V T).map List.prod).prod =
      ((rwTabs r g 0 (ops.map fun o => o.map fun (x : Nat) => (x : F)) V T).map List.prod).prod *
        (cellT r g mem u).prod) :
    V = ops.map fun o => o.map fun a => mem.getD a 0 := by
  set A := ops.map fun o => o.map fun (x : Nat) => (x : F) with hA
  have hA' : ∀ a ∈ A, a.length = 2 ^ n := by
    intro a ha
    obtain ⟨o, h, rfl⟩ := List.mem_map.1 ha
    rw [List.length_map]; exact ho o h
  have hAl : A.length = ops.length := by simp [hA]
  have e0 : T.flatten.map (· + (0 : F)) = T.flatten := by simp
  rw [cellT_prod_init, cellT_prod, rwTabs_prod r g 1 (hV.trans hAl.symm) (hT.trans hAl.symm) hA' hv ht,
    rwTabs_prod r g 0 (hV.trans hAl.symm) (hT.trans hAl.symm) hA' hv ht, e0, ← writeSet_eq, ← hashProd_add,
    ← hashProd_add] at heq
  have hS : wSide mem A V T = rSide mem A V T u := by
    by_contra hne
    apply h2
    refine ⟨fun hmap => h1 ⟨hne, hmap⟩, heq⟩
  have fl : ∀ L : List (List F), (∀ a ∈ L, a.length = 2 ^ n) → L.length = ops.length →
      L.flatten.length = ops.length * 2 ^ n := by
    intro L h hl
    have : ∀ L : List (List F), (∀ a ∈ L, a.length = 2 ^ n) → L.flatten.length = L.length * 2 ^ n := by
      intro L
      induction L with
      | nil => simp
      | cons a L ih =>
        intro h
        rw [List.flatten_cons, List.length_append, h a (by simp), ih fun x hx => h x (by simp [hx]),
          List.length_cons]; ring
    rw [this L h, hl]
  have lA := fl A hA' hAl
  have lV := fl V hv hV
  have lT := fl T ht hT
  have hsound := memory_check_sound (mem := mem) (A := A.flatten) (V := V.flatten) (T := T.flatten) (ts := u)
    (fun k hk hle => hchar k hk (by rw [lA] at hle; omega)) hS
  have hinj : ∀ a b : Nat, a < 2 ^ m → b < 2 ^ m → (a : F) = (b : F) → a = b := by
    have key : ∀ a b : Nat, a < b → b < 2 ^ m → (a : F) ≠ (b : F) := by
      intro a b hab hb he
      refine hchar (b - a) (by omega) (by omega) ?_
      rw [Nat.cast_sub hab.le, he, sub_self]
    intro a b ha hb he
    rcases lt_trichotomy a b with h | h | h
    · exact absurd he (key a b h hb)
    · exact h
    · exact absurd he.symm (key b a h ha)
  -- flattened version
  have hflat : V.flatten = (ops.map fun o => o.map fun a => mem.getD a 0).flatten := by
    have eo : A.flatten = ops.flatten.map fun (x : Nat) => (x : F) := by rw [hA, List.map_flatten]
    have eg : (ops.map fun o => o.map fun a => mem.getD a 0).flatten = ops.flatten.map fun a => mem.getD a 0 := by
      rw [List.map_flatten]
    have lo : ops.flatten.length = ops.length * 2 ^ n := by rw [← lA, eo, List.length_map]
    rw [eg]
    apply List.ext_getElem (by rw [lV, List.length_map, lo])
    intro i h1 h2
    have hi : i < ops.flatten.length := by rwa [List.length_map] at h2
    have hx : (A.flatten[i]'(by omega), V.flatten[i], T.flatten[i]'(by omega)) ∈ readSet A.flatten V.flatten T.flatten := by
      unfold readSet
      rw [Multiset.mem_coe, List.mem_iff_getElem]
      exact ⟨i, by rw [List.length_zip, List.length_zip]; omega, by simp⟩
    obtain ⟨c, hc, e1, e2⟩ := hsound _ hx
    simp only at e1 e2
    have e3 : A.flatten[i]'(by omega) = ((ops.flatten[i] : Nat) : F) := by
      simp only [eo, List.getElem_map]
    rw [e3] at e1
    obtain ⟨o, ho1, ho2⟩ := List.mem_flatten.1 (List.getElem_mem hi)
    have := hinj _ _ (hb o ho1 _ ho2) (by rw [← hm]; exact hc) e1
    rw [List.getElem_map, this, e2]
  -- back to blocks
  have : ∀ (V W : List (List F)), V.length = W.length → (∀ a ∈ V, a.length = 2 ^ n) →
      (∀ a ∈ W, a.length = 2 ^ n) → V.flatten = W.flatten → V = W := by
    intro V
    induction V with
    | nil => intro W hl _ _ _; exact (List.length_eq_zero_iff.1 hl.symm).symm
    | cons v V ih =>
      intro W hl hv hw he
      cases W with
      | nil => simp at hl
      | cons w W =>
        rw [List.flatten_cons, List.flatten_cons] at he
        obtain ⟨a, b⟩ := List.append_inj he (by rw [hv v (by simp), hw w (by simp)])
        rw [a, ih W (by simpa using hl) (fun x hx => hv x (by simp [hx])) (fun x hx => hw x (by simp [hx])) b]
  refine this _ _ (by simp [hV]) hv ?_ hflat
  intro a ha
  obtain ⟨o, h, rfl⟩ := List.mem_map.1 ha
  rw [List.length_map]; exact ho o h

end Spartan
