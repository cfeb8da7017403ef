import Verif.Model.Tree
import Verif.Spec.Merkle
import Mathlib.Tactic.Linarith
import Mathlib.Tactic.Ring
import Mathlib.Data.Nat.Basic

/-! The incremental Merkle tree computes the complete tree over its leaves. -/

namespace Spartan.Lib
open Spec

section
variable {H : ℕ → ℕ → ℕ} {f g : ℕ → ℕ}

theorem subtree_congr : ∀ (l i : ℕ), (∀ j, j / 2 ^ l = i → f j = g j) → subtree H f l i = subtree H g l i
  | 0, i, h => h i (by simp)
  | l + 1, i, h => by
    have key : ∀ k, k / 2 = i → subtree H f l k = subtree H g l k := by
      intro k hk
      refine subtree_congr l k fun j hj => h j ?_
      rw [pow_succ, ← Nat.div_div_eq_div_mul, hj, hk]
    simp only [subtree]
    rw [key (2 * i) (by omega), key (2 * i + 1) (by omega)]

theorem subtree_mem {C : ℕ → Prop} (hH : ∀ a b, C a → C b → C (H a b)) (hf : ∀ i, C (f i)) :
    ∀ l i, C (subtree H f l i)
  | 0, i => hf i
  | l + 1, i => hH _ _ (subtree_mem hH hf l _) (subtree_mem hH hf l _)

theorem subtree_const (z : ℕ) : ∀ l i, subtree H (fun _ => z) l i = subtree H (fun _ => z) l 0
  | 0, _ => rfl
  | l + 1, i => by
    simp only [subtree]
    rw [subtree_const z l (2 * i), subtree_const z l (2 * i + 1), subtree_const z l (2 * 0 + 1)]

end

/-- The length of row `l` over `n` leaves. -/
def rowLen (n l : ℕ) : ℕ := (n + (2 ^ l - 1)) / 2 ^ l

theorem lt_rowLen {n l i : ℕ} : i < rowLen n l ↔ i * 2 ^ l < n := by
  have hp : 0 < 2 ^ l := Nat.two_pow_pos l
  rw [rowLen, Nat.lt_iff_add_one_le, Nat.le_div_iff_mul_le hp, add_mul]
  omega

theorem rowLen_zero (n : ℕ) : rowLen n 0 = n := by simp [rowLen]

/-- What the rows of the tree contain. -/
structure RowOk (H : ℕ → ℕ → ℕ) (L : List ℕ) (l : ℕ) (row : List (Option ℕ)) : Prop where
  len : row.length = rowLen L.length l
  get : ∀ i < row.length, row.getD i none = some (subtree H (fun j => L.getD j 0) l i)

/-- The hashes of empty subtrees. -/
def zeroAt (H : ℕ → ℕ → ℕ) (l : ℕ) : ℕ := subtree H (fun _ => 0) l 0

/-- The hash on its canonical arguments. -/
structure HashOk (h : List ℕ → Option ℕ) (H : ℕ → ℕ → ℕ) (C : ℕ → Prop) : Prop where
  eq : ∀ a b, C a → C b → h [a, b] = some (H a b)
  mem : ∀ a b, C a → C b → C (H a b)
  zero : C 0

/-- A tree that holds the leaves `L`. -/
structure MerkleTree.Holds (H : ℕ → ℕ → ℕ) (d : ℕ) (L : List ℕ) (t : MerkleTree) : Prop where
  depth : t.depth = d
  pos : 1 ≤ d
  fits : L.length ≤ 2 ^ d
  zeroes : ∀ l < d, t.zeroes[l]? = some (zeroAt H l)
  rows : t.nodes.length = d
  row : ∀ l < d, RowOk H L l (t.nodes.getD l [])
  root : t.root = merkleRoot H 0 d L

theorem nodeOrZero_eq {H : ℕ → ℕ → ℕ} {L : List ℕ} {zs : List ℕ} {nodes : List (List (Option ℕ))} {l : ℕ}
    (hz : zs[l]? = some (zeroAt H l)) (hr : RowOk H L l (nodes.getD l [])) (i : ℕ) :
    nodeOrZero zs nodes l i = some (subtree H (fun j => L.getD j 0) l i) := by
  unfold nodeOrZero
  simp only
  by_cases hi : i < (nodes.getD l []).length
  · rw [if_pos hi, hr.get i hi]
  · rw [if_neg hi, hz, zeroAt, ← subtree_const 0 l i]
    congr 1
    refine subtree_congr l i fun j hj => ?_
    rw [hr.len, lt_rowLen] at hi
    have : i * 2 ^ l ≤ j := by rw [← hj]; exact Nat.div_mul_le_self j _
    rw [List.getD_eq_default]
    omega

theorem zeroLoop_eq {h : List ℕ → Option ℕ} {H : ℕ → ℕ → ℕ} {C : ℕ → Prop} (hh : HashOk h H C) :
    ∀ (d l : ℕ), ∃ zs, zeroLoop h d (zeroAt H l) = some (zs, zeroAt H (l + d)) ∧ zs.length = d ∧
      ∀ i < d, zs[i]? = some (zeroAt H (l + i))
  | 0, l => ⟨[], rfl, rfl, fun i hi => by omega⟩
  | d + 1, l => by
    obtain ⟨zs, h1, h2, h3⟩ := zeroLoop_eq hh d (l + 1)
    have hC : C (zeroAt H l) := subtree_mem hh.mem (fun _ => hh.zero) l 0
    have e : h [zeroAt H l, zeroAt H l] = some (zeroAt H (l + 1)) := by
      rw [hh.eq _ _ hC hC, zeroAt, zeroAt, subtree, subtree_const 0 l (2 * 0 + 1)]
    refine ⟨zeroAt H l :: zs, ?_, by rw [List.length_cons, h2], ?_⟩
    · simp only [zeroLoop, e, Option.bind_eq_bind, Option.bind_some, h1]
      rw [show l + 1 + d = l + (d + 1) by ring]
    · intro i hi
      cases i with
      | zero => rfl
      | succ i =>
        rw [List.getElem?_cons_succ, h3 i (by omega), show l + 1 + i = l + (i + 1) by ring]

theorem new_holds {h : List ℕ → Option ℕ} {H : ℕ → ℕ → ℕ} {C : ℕ → Prop} (hh : HashOk h H C) {d : ℕ}
    (h1 : 1 ≤ d) (h32 : d ≤ 32) : ∃ t, MerkleTree.new h d = some t ∧ t.Holds H d [] := by
  obtain ⟨zs, e, hl, hz⟩ := zeroLoop_eq hh d 0
  have e0 : zeroAt H 0 = 0 := rfl
  rw [e0, zero_add] at e
  refine ⟨⟨d, zs, List.replicate d [], zeroAt H d⟩, ?_, ?_⟩
  · unfold MerkleTree.new
    rw [if_neg (by omega), e]
    rfl
  · refine ⟨rfl, h1, by simp, fun l hl => by simpa using hz l hl, by simp, ?_, ?_⟩
    · intro l hl
      have : (List.replicate d ([] : List (Option ℕ))).getD l [] = [] := by
        rw [List.getD_eq_getElem?_getD, List.getElem?_replicate]
        split_ifs <;> rfl
      simp only
      rw [this]
      refine ⟨?_, fun i hi => by simp at hi⟩
      have := @lt_rowLen 0 l 0
      simp only [List.length_nil]
      omega
    · simp only [merkleRoot, zeroAt]
      exact subtree_congr d 0 fun j _ => by simp

/-- The leaves after writing `v` at `idx`. -/
def putLeaf (L : List ℕ) (idx v : ℕ) : List ℕ := if idx < L.length then L.set idx v else L ++ [v]

theorem putLeaf_getD {L : List ℕ} {idx v : ℕ} (h : idx ≤ L.length) (j : ℕ) :
    (putLeaf L idx v).getD j 0 = if j = idx then v else L.getD j 0 := by
  unfold putLeaf
  split_ifs with h1 h2 h2
  · subst h2
    rw [List.getD_eq_getElem?_getD, List.getElem?_set_self h1]; rfl
  · rw [List.getD_eq_getElem?_getD, List.getElem?_set_ne (Ne.symm h2), ← List.getD_eq_getElem?_getD]
  · subst h2
    rw [List.getD_append_right _ _ _ _ (by omega), show j - L.length = 0 by omega]; rfl
  · rcases Nat.lt_or_ge j L.length with h3 | h3
    · rw [List.getD_append _ _ _ _ h3]
    · rw [List.getD_append_right _ _ _ _ h3, List.getD_eq_default _ _ h3, List.getD_eq_default]
      simp only [List.length_singleton]
      omega

theorem putLeaf_length {L : List ℕ} {idx v : ℕ} (h : idx ≤ L.length) :
    (putLeaf L idx v).length = max L.length (idx + 1) := by
  unfold putLeaf
  split_ifs with h1
  · rw [List.length_set]; omega
  · rw [List.length_append, List.length_singleton]; omega

theorem getD_set_self {α : Type} {l : List α} {i : ℕ} {a d : α} (h : i < l.length) : (l.set i a).getD i d = a := by
  rw [List.getD_eq_getElem?_getD, List.getElem?_set_self h]; rfl

theorem getD_set_ne {α : Type} {l : List α} {i j : ℕ} {a d : α} (h : j ≠ i) : (l.set i a).getD j d = l.getD j d := by
  rw [List.getD_eq_getElem?_getD, List.getElem?_set_ne (Ne.symm h), ← List.getD_eq_getElem?_getD]

/-- One row after the write. -/
theorem assign_ok {H : ℕ → ℕ → ℕ} {L : List ℕ} {idx v l : ℕ} {row : List (Option ℕ)} (hidx : idx ≤ L.length)
    (hr : RowOk H L l row) :
    RowOk H (putLeaf L idx v) l
      (assign row (idx / 2 ^ l) (subtree H (fun j => (putLeaf L idx v).getD j 0) l (idx / 2 ^ l))) := by
  have hp : 0 < 2 ^ l := Nat.two_pow_pos l
  have hdm := Nat.div_add_mod idx (2 ^ l)
  have hml := Nat.mod_lt idx hp
  obtain ⟨i, hi⟩ : ∃ i, i = idx / 2 ^ l := ⟨_, rfl⟩
  rw [← hi] at hdm ⊢
  have hile : i ≤ row.length := by
    rw [hr.len]
    by_contra hc
    push Not at hc
    have := (@lt_rowLen L.length l (rowLen L.length l)).not.1 (lt_irrefl _)
    have h2 : (rowLen L.length l + 1) * 2 ^ l ≤ i * 2 ^ l := Nat.mul_le_mul_right _ hc
    rw [add_mul, one_mul] at h2
    rw [mul_comm] at hdm
    omega
  have other : ∀ k, k ≠ i → subtree H (fun j => (putLeaf L idx v).getD j 0) l k =
      subtree H (fun j => L.getD j 0) l k := by
    intro k hk
    refine subtree_congr l k fun j hj => ?_
    rw [putLeaf_getD hidx, if_neg]
    rintro rfl
    exact hk (hj.symm.trans hi.symm)
  have hlen : (assign row i (subtree H (fun j => (putLeaf L idx v).getD j 0) l i)).length = max row.length (i + 1) := by
    unfold assign
    split_ifs with h
    · rw [List.length_set]; omega
    · simp only [List.length_append, List.length_replicate, List.length_singleton]; omega
  constructor
  · rw [hlen, hr.len]
    apply Nat.le_antisymm
    · refine max_le ?_ ?_
      · by_contra hc
        push Not at hc
        rw [lt_rowLen] at hc
        have := (@lt_rowLen (putLeaf L idx v).length l _).not.1 (lt_irrefl _)
        rw [putLeaf_length hidx] at *
        omega
      · rw [Nat.add_one_le_iff, lt_rowLen, putLeaf_length hidx, mul_comm]
        omega
    · by_contra hc
      push Not at hc
      rw [lt_rowLen, putLeaf_length hidx] at hc
      have h1 : rowLen L.length l * 2 ^ l ≤ max (rowLen L.length l) (i + 1) * 2 ^ l :=
        Nat.mul_le_mul_right _ (le_max_left _ _)
      have h2 : (i + 1) * 2 ^ l ≤ max (rowLen L.length l) (i + 1) * 2 ^ l :=
        Nat.mul_le_mul_right _ (le_max_right _ _)
      have h3 := (@lt_rowLen L.length l (rowLen L.length l)).not.1 (lt_irrefl _)
      rw [add_mul, one_mul, mul_comm i] at h2
      omega
  · intro k hk
    rw [hlen] at hk
    unfold assign
    split_ifs with h
    · by_cases hki : k = i
      · subst hki
        rw [getD_set_self h]
      · rw [getD_set_ne hki, hr.get k (by omega), other k hki]
    · have hir : i = row.length := by omega
      rw [hir, Nat.sub_self, List.replicate_zero, List.append_nil, ← hir]
      by_cases hki : k = i
      · subst hki
        rw [List.getD_append_right _ _ _ _ (by omega), show k - row.length = 0 by omega]; rfl
      · rw [List.getD_append _ _ _ _ (by omega), hr.get k (by omega), other k hki]

theorem climb_ok {h : List ℕ → Option ℕ} {H : ℕ → ℕ → ℕ} {C : ℕ → Prop} (hh : HashOk h H C) {d : ℕ} {L : List ℕ}
    {idx v : ℕ} (hidx : idx ≤ L.length) (hL : ∀ x ∈ L, C x) (hv : C v) {zs : List ℕ}
    (hz : ∀ l < d, zs[l]? = some (zeroAt H l)) :
    ∀ (n l : ℕ), l + n = d → ∀ nodes : List (List (Option ℕ)), nodes.length = d →
      (∀ k < d, RowOk H (if k < l then putLeaf L idx v else L) k (nodes.getD k [])) →
      ∃ nodes', climb h zs n l (idx / 2 ^ l)
          (subtree H (fun j => (putLeaf L idx v).getD j 0) l (idx / 2 ^ l)) nodes =
          (nodes', some (subtree H (fun j => (putLeaf L idx v).getD j 0) d (idx / 2 ^ d))) ∧
        nodes'.length = d ∧ ∀ k < d, RowOk H (putLeaf L idx v) k (nodes'.getD k [])
  | 0, l, hn, nodes, hlen, hr => by
    have : l = d := by omega
    subst this
    exact ⟨nodes, rfl, hlen, fun k hk => by simpa [hk] using hr k hk⟩
  | n + 1, l, hn, nodes, hlen, hr => by
    have hCf : ∀ j, C ((putLeaf L idx v).getD j 0) := by
      intro j
      rw [putLeaf_getD hidx]
      split_ifs
      · exact hv
      · rcases Nat.lt_or_ge j L.length with h3 | h3
        · rw [List.getD_eq_getElem _ _ h3]; exact hL _ (List.getElem_mem h3)
        · rw [List.getD_eq_default _ _ h3]; exact hh.zero
    obtain ⟨S, hS⟩ : ∃ S, S = subtree H (fun j => (putLeaf L idx v).getD j 0) := ⟨_, rfl⟩
    have hCS : ∀ a b, C (S a b) := by rw [hS]; exact subtree_mem hh.mem hCf
    have hld : l < d := by omega
    obtain ⟨nodes1, hn1⟩ : ∃ nodes1, nodes1 = nodes.set l (assign (nodes.getD l []) (idx / 2 ^ l)
      (S l (idx / 2 ^ l))) := ⟨_, rfl⟩
    have hlen1 : nodes1.length = d := by rw [hn1, List.length_set, hlen]
    have hrow : RowOk H (putLeaf L idx v) l (nodes1.getD l []) := by
      rw [hn1, getD_set_self (by omega), hS]
      refine assign_ok hidx ?_
      have := hr l hld
      rwa [if_neg (lt_irrefl l)] at this
    have hr1 : ∀ k < d, RowOk H (if k < l + 1 then putLeaf L idx v else L) k (nodes1.getD k []) := by
      intro k hk
      by_cases hkl : k = l
      · subst hkl
        rw [if_pos (by omega)]; exact hrow
      · rw [hn1, getD_set_ne hkl]
        have := hr k hk
        by_cases h1 : k < l
        · rw [if_pos h1] at this; rw [if_pos (by omega)]; exact this
        · rw [if_neg h1] at this; rw [if_neg (by omega)]; exact this
    obtain ⟨nodes', e, l', r'⟩ := climb_ok hh hidx hL hv hz n (l + 1) (by omega) nodes1 hlen1 hr1
    refine ⟨nodes', ?_, l', r'⟩
    rw [← e]
    rw [← hS]
    have hst : idx / 2 ^ l - idx / 2 ^ l % 2 = 2 * (idx / 2 ^ l / 2) := by omega
    have hpar : idx / 2 ^ l / 2 = idx / 2 ^ (l + 1) := by rw [pow_succ, Nat.div_div_eq_div_mul]
    simp only [climb]
    rw [← hn1, nodeOrZero_eq (hz l hld) hrow, nodeOrZero_eq (hz l hld) hrow, ← hS, hst]
    simp only [hashChildren, Option.bind_eq_bind, Option.bind_some]
    rw [hh.eq _ _ (hCS _ _) (hCS _ _)]
    simp only
    rw [hpar]
    rw [hS]
    rfl

/-- `insert` and `update` of a leaf. -/
theorem store_holds {h : List ℕ → Option ℕ} {H : ℕ → ℕ → ℕ} {C : ℕ → Prop} (hh : HashOk h H C) {d : ℕ} {L : List ℕ}
    {t : MerkleTree} (ht : t.Holds H d L) (hL : ∀ x ∈ L, C x) {idx v : ℕ} (hidx : idx ≤ L.length)
    (hd : idx < 2 ^ d) (hv : C v) :
    ∃ t', t.store (climb h t.zeroes t.depth 0 idx v t.nodes) = (t', true) ∧ t'.Holds H d (putLeaf L idx v) := by
  obtain ⟨nodes', e, l', r'⟩ := climb_ok hh hidx hL hv ht.zeroes d 0 (by omega) t.nodes ht.rows
    (fun k hk => by rw [if_neg (by omega)]; exact ht.row k hk)
  have e0 : subtree H (fun j => (putLeaf L idx v).getD j 0) 0 (idx / 2 ^ 0) = v := by
    simp only [subtree, pow_zero, Nat.div_one]
    rw [putLeaf_getD hidx, if_pos rfl]
  rw [e0, pow_zero, Nat.div_one, Nat.div_eq_of_lt hd] at e
  refine ⟨{ t with nodes := nodes', root := subtree H (fun j => (putLeaf L idx v).getD j 0) d 0 },
    by rw [ht.depth, e]; simp only [MerkleTree.store, ht.depth], ?_⟩
  refine ⟨ht.depth, ht.pos, ?_, ht.zeroes, l', r', rfl⟩
  rw [putLeaf_length hidx]
  exact max_le ht.fits hd

theorem Holds_row_zero {H : ℕ → ℕ → ℕ} {d : ℕ} {L : List ℕ} {t : MerkleTree} (ht : t.Holds H d L) :
    t.nodes.getD 0 [] = L.map some := by
  have hr := ht.row 0 ht.pos
  have hl : (t.nodes.getD 0 []).length = L.length := by rw [hr.len, rowLen_zero]
  refine List.ext_getElem (by rw [hl, List.length_map]) fun i h1 h2 => ?_
  have := hr.get i h1
  rw [List.getD_eq_getElem _ _ h1] at this
  rw [this, List.getElem_map, subtree, List.getD_eq_getElem _ _ (by omega)]

/-! ### Proofs -/

theorem pathLoop_eq {H : ℕ → ℕ → ℕ} {d : ℕ} {L : List ℕ} {t : MerkleTree} (ht : t.Holds H d L) :
    ∀ (n l i : ℕ), l + n = d → (pathLoop t n l i).1.length = n ∧ (pathLoop t n l i).2.length = n ∧
      ∀ k < n, (pathLoop t n l i).1[k]? = some (some (subtree H (fun j => L.getD j 0) (l + k)
          (if i / 2 ^ k % 2 = 0 then i / 2 ^ k + 1 else i / 2 ^ k - 1))) ∧
        (pathLoop t n l i).2[k]? = some (i / 2 ^ k % 2)
  | 0, l, i, h => ⟨rfl, rfl, fun k hk => by omega⟩
  | n + 1, l, i, h => by
    obtain ⟨h1, h2, h3⟩ := pathLoop_eq ht n (l + 1) (i / 2) (by omega)
    simp only [pathLoop]
    refine ⟨by rw [List.length_cons, h1], by rw [List.length_cons, h2], fun k hk => ?_⟩
    cases k with
    | zero =>
      simp only [List.getElem?_cons_zero, pow_zero, Nat.div_one, add_zero]
      rw [nodeOrZero_eq (ht.zeroes l (by omega)) (ht.row l (by omega))]
      exact ⟨rfl, trivial⟩
    | succ k =>
      obtain ⟨a, b⟩ := h3 k (by omega)
      have e : i / 2 / 2 ^ k = i / 2 ^ (k + 1) := by rw [Nat.div_div_eq_div_mul, pow_succ, mul_comm]
      rw [e] at a b
      simp only [List.getElem?_cons_succ]
      rw [a, b, show l + 1 + k = l + (k + 1) by ring]
      exact ⟨rfl, rfl⟩

theorem verifyLoop_path {h : List ℕ → Option ℕ} {H : ℕ → ℕ → ℕ} {C : ℕ → Prop} (hh : HashOk h H C) {d : ℕ}
    {L : List ℕ} {t : MerkleTree} (ht : t.Holds H d L) (hL : ∀ x ∈ L, C x) :
    ∀ (n l i : ℕ), l + n = d →
      verifyLoop h (pathLoop t n l i).1 (pathLoop t n l i).2 (subtree H (fun j => L.getD j 0) l i) =
        some (subtree H (fun j => L.getD j 0) d (i / 2 ^ n))
  | 0, l, i, hn => by
    rw [show l = d by omega]
    simp only [pathLoop, verifyLoop, pow_zero, Nat.div_one]
  | n + 1, l, i, hn => by
    have hCS : ∀ a b, C (subtree H (fun j => L.getD j 0) a b) := subtree_mem hh.mem fun j => by
      rcases Nat.lt_or_ge j L.length with h3 | h3
      · rw [List.getD_eq_getElem _ _ h3]; exact hL _ (List.getElem_mem h3)
      · rw [List.getD_eq_default _ _ h3]; exact hh.zero
    have ih := verifyLoop_path hh ht hL n (l + 1) (i / 2) (by omega)
    rw [Nat.div_div_eq_div_mul, ← pow_succ'] at ih
    rw [← ih]
    simp only [pathLoop, verifyLoop, List.head?_cons, List.tail_cons]
    rw [nodeOrZero_eq (ht.zeroes l (by omega)) (ht.row l (by omega))]
    rcases Nat.mod_two_eq_zero_or_one i with hi | hi
    · have e : i = 2 * (i / 2) := by omega
      simp only [hi, if_true, splice, hashChildren, Option.bind_eq_bind, Option.bind_some]
      rw [hh.eq _ _ (hCS _ _) (hCS _ _)]
      simp only [Option.bind_some]
      rw [show subtree H (fun j => L.getD j 0) (l + 1) (i / 2) = H (subtree H (fun j => L.getD j 0) l (2 * (i / 2)))
        (subtree H (fun j => L.getD j 0) l (2 * (i / 2) + 1)) from rfl, ← e]
    · have e : i = 2 * (i / 2) + 1 := by omega
      have e' : i - 1 = 2 * (i / 2) := by omega
      simp only [hi, one_ne_zero, if_false, splice, hashChildren, Option.bind_eq_bind, Option.bind_some]
      rw [hh.eq _ _ (hCS _ _) (hCS _ _)]
      simp only [Option.bind_some]
      rw [show subtree H (fun j => L.getD j 0) (l + 1) (i / 2) = H (subtree H (fun j => L.getD j 0) l (2 * (i / 2)))
        (subtree H (fun j => L.getD j 0) l (2 * (i / 2) + 1)) from rfl, ← e, ← e']

/-- The side taken at a level: only the positions of the list of path indices matter. -/
def sideBit : Option ℕ → ℕ
  | some (_ + 1) => 1
  | _ => 0

/-- The index of the leaf that `n` path indices describe. -/
def pathIndex : ℕ → List ℕ → ℕ
  | 0, _ => 0
  | n + 1, ps => sideBit ps.head? + 2 * pathIndex n ps.tail

theorem pathIndex_lt : ∀ (n : ℕ) (ps : List ℕ), pathIndex n ps < 2 ^ n
  | 0, _ => by simp [pathIndex]
  | n + 1, ps => by
    have := pathIndex_lt n ps.tail
    have : sideBit ps.head? ≤ 1 := by unfold sideBit; split <;> omega
    rw [pathIndex, pow_succ]
    omega

/-- The pairs that `verifyProof` hashes. -/
def hashedPairs (h : List ℕ → Option ℕ) : List (Option ℕ) → List ℕ → ℕ → List (ℕ × ℕ)
  | some s :: ss, ps, node =>
    let p := if sideBit ps.head? = 1 then (s, node) else (node, s)
    p :: match h [p.1, p.2] with
      | some parent => hashedPairs h ss ps.tail parent
      | none => []
  | _, _, _ => []

/-- A collision between a pair of a list and a pair of siblings of the tree over `f`. -/
def CollidesWithTree (h : List ℕ → Option ℕ) (H : ℕ → ℕ → ℕ) (f : ℕ → ℕ) (ps : List (ℕ × ℕ)) : Prop :=
  ∃ p ∈ ps, ∃ l i, p ≠ (subtree H f l (2 * i), subtree H f l (2 * i + 1)) ∧
    h [p.1, p.2] = some (subtree H f (l + 1) i) ∧
    h [subtree H f l (2 * i), subtree H f l (2 * i + 1)] = some (subtree H f (l + 1) i)

theorem verifyLoop_binds {h : List ℕ → Option ℕ} {H : ℕ → ℕ → ℕ} {f : ℕ → ℕ}
    (hf : ∀ l i, h [subtree H f l (2 * i), subtree H f l (2 * i + 1)] = some (subtree H f (l + 1) i)) {d : ℕ} :
    ∀ (ss : List (Option ℕ)) (ps : List ℕ) (node l : ℕ), l + ss.length = d →
      verifyLoop h ss ps node = some (subtree H f d 0) →
      node = subtree H f l (pathIndex ss.length ps) ∨ CollidesWithTree h H f (hashedPairs h ss ps node)
  | [], ps, node, l, hl, hv => by
    simp only [List.length_nil, add_zero] at hl
    subst hl
    simp only [verifyLoop, Option.some.injEq] at hv
    exact .inl hv
  | none :: ss, ps, node, l, hl, hv => by
    exfalso
    simp only [verifyLoop] at hv
    cases hp : ps.head? with
    | none => rw [hp] at hv; simp [splice, hashChildren] at hv
    | some k => rw [hp] at hv; cases k <;> simp [splice, hashChildren] at hv
  | some s :: ss, ps, node, l, hl, hv => by
    obtain ⟨p, hp⟩ : ∃ p, p = if sideBit ps.head? = 1 then (s, node) else (node, s) := ⟨_, rfl⟩
    have hsp : splice ps.head? node (some s) = (some p.1, some p.2) := by
      rw [hp]
      unfold splice sideBit
      split <;> split <;> simp_all
    simp only [verifyLoop, hsp, hashChildren, Option.bind_eq_bind, Option.bind_some] at hv
    simp only [hashedPairs]
    rw [← hp]
    cases hc : h [p.1, p.2] with
    | none => rw [hc] at hv; cases hv
    | some node' =>
      rw [hc, Option.bind_some] at hv
      rcases verifyLoop_binds hf ss ps.tail node' (l + 1) (by rw [List.length_cons] at hl; omega) hv with e | e
      swap
      · obtain ⟨q, hq, r⟩ := e
        exact .inr ⟨q, List.mem_cons_of_mem _ hq, r⟩
      have hn := hf l (pathIndex ss.length ps.tail)
      rw [e] at hc
      by_cases hpq : p = (subtree H f l (2 * pathIndex ss.length ps.tail),
          subtree H f l (2 * pathIndex ss.length ps.tail + 1))
      swap
      · exact .inr ⟨p, List.mem_cons_self .., l, _, hpq, hc, hn⟩
      left
      rw [List.length_cons, pathIndex]
      have hs : sideBit ps.head? = 0 ∨ sideBit ps.head? = 1 := by unfold sideBit; split <;> simp
      rw [hp] at hpq
      rcases hs with hs | hs
      · rw [if_neg (by omega)] at hpq
        rw [hs, zero_add]
        exact (Prod.mk.inj hpq).1
      · rw [if_pos hs] at hpq
        rw [hs, add_comm]
        exact (Prod.mk.inj hpq).2

/-- Two trees with equal nodes at `(l, i)` have equal leaves below it, or there are two different pairs of
siblings, at the same place, with the same hash. -/
theorem subtree_binds {h : List ℕ → Option ℕ} {H : ℕ → ℕ → ℕ} {f g : ℕ → ℕ}
    (hf : ∀ l i, h [subtree H f l (2 * i), subtree H f l (2 * i + 1)] = some (subtree H f (l + 1) i))
    (hg : ∀ l i, h [subtree H g l (2 * i), subtree H g l (2 * i + 1)] = some (subtree H g (l + 1) i)) :
    ∀ (l i : ℕ), subtree H f l i = subtree H g l i → (∀ j, j / 2 ^ l = i → f j = g j) ∨
      ∃ k < l, ∃ j, (subtree H f k (2 * j), subtree H f k (2 * j + 1)) ≠
          (subtree H g k (2 * j), subtree H g k (2 * j + 1)) ∧
        h [subtree H f k (2 * j), subtree H f k (2 * j + 1)] =
          h [subtree H g k (2 * j), subtree H g k (2 * j + 1)]
  | 0, i, he => .inl fun j hj => by
    rw [pow_zero, Nat.div_one] at hj
    subst hj; exact he
  | l + 1, i, he => by
    have a := hf l i
    have b := hg l i
    rw [← he] at b
    by_cases hpq : (subtree H f l (2 * i), subtree H f l (2 * i + 1)) =
        (subtree H g l (2 * i), subtree H g l (2 * i + 1))
    swap
    · exact .inr ⟨l, by omega, i, hpq, a.trans b.symm⟩
    obtain ⟨e1, e2⟩ := Prod.mk.inj hpq
    rcases subtree_binds hf hg l _ e1 with c1 | ⟨k, hk, c1⟩
    swap
    · exact .inr ⟨k, by omega, c1⟩
    rcases subtree_binds hf hg l _ e2 with c2 | ⟨k, hk, c2⟩
    swap
    · exact .inr ⟨k, by omega, c2⟩
    refine .inl fun j hj => ?_
    rw [pow_succ, ← Nat.div_div_eq_div_mul] at hj
    rcases Nat.mod_two_eq_zero_or_one (j / 2 ^ l) with hm | hm
    · exact c1 j (by omega)
    · exact c2 j (by omega)

/-! ### Histories -/

/-- One call on a tree that holds `L`. -/
theorem apply_holds {h : List ℕ → Option ℕ} {H : ℕ → ℕ → ℕ} {C : ℕ → Prop} (hh : HashOk h H C) {d : ℕ} {L : List ℕ}
    {t : MerkleTree} (ht : t.Holds H d L) (hL : ∀ x ∈ L, C x) (op : TreeOp) (hop : ∀ v, op = .insert v → C v) :
    (t.apply h op).2 = (treeStep d L op).2 ∧ (t.apply h op).1.Holds H d (treeStep d L op).1 ∧
      (∀ x ∈ (treeStep d L op).1, C x) ∧ ((t.apply h op).2 = false → (t.apply h op).1 = t) := by
  have hlen : (t.nodes.getD 0 []).length = L.length := by rw [Holds_row_zero ht, List.length_map]
  cases op with
  | insert v =>
    simp only [MerkleTree.apply, MerkleTree.insert, treeStep]
    rw [hlen, ht.depth]
    by_cases hc : L.length < 2 ^ d
    · rw [if_neg (by omega), if_pos hc]
      obtain ⟨t', e, hold⟩ := store_holds hh ht hL (le_refl L.length) hc (hop v rfl)
      rw [ht.depth] at e
      rw [e]
      rw [putLeaf, if_neg (lt_irrefl _)] at hold
      refine ⟨rfl, hold, ?_, fun hf => by cases hf⟩
      intro x hx
      rcases List.mem_append.1 hx with hx | hx
      · exact hL x hx
      · rw [List.mem_singleton.1 hx]; exact hop v rfl
    · rw [if_pos (by omega), if_neg hc]
      exact ⟨rfl, ht, hL, fun _ => rfl⟩
  | delete i =>
    simp only [MerkleTree.apply, MerkleTree.delete, treeStep]
    rw [hlen]
    by_cases hc : i < L.length
    · rw [if_pos hc, if_pos hc]
      have hz : t.zeroes.getD 0 0 = 0 := by
        rw [List.getD_eq_getElem?_getD, ht.zeroes 0 ht.pos]; rfl
      obtain ⟨t', e, hold⟩ := store_holds hh ht hL (Nat.le_of_lt hc) (lt_of_lt_of_le hc ht.fits) hh.zero
      rw [hz, e]
      rw [putLeaf, if_pos hc] at hold
      refine ⟨rfl, hold, ?_, fun hf => by cases hf⟩
      intro x hx
      rcases List.mem_or_eq_of_mem_set hx with hx | hx
      · exact hL x hx
      · rw [hx]; exact hh.zero
    · rw [if_neg hc, if_neg hc]
      exact ⟨rfl, ht, hL, fun _ => rfl⟩

theorem run_holds {h : List ℕ → Option ℕ} {H : ℕ → ℕ → ℕ} {C : ℕ → Prop} (hh : HashOk h H C) {d : ℕ} :
    ∀ (ops : List TreeOp) (L : List ℕ) (t : MerkleTree), t.Holds H d L → (∀ x ∈ L, C x) →
      (∀ v, .insert v ∈ ops → C v) →
      (t.run h ops).2 = (treeRun d ops L).2 ∧ (t.run h ops).1.Holds H d (treeRun d ops L).1 ∧
        ∀ x ∈ (treeRun d ops L).1, C x
  | [], L, t, ht, hL, _ => ⟨rfl, ht, hL⟩
  | op :: ops, L, t, ht, hL, hop => by
    obtain ⟨h1, h2, h3, -⟩ := apply_holds hh ht hL op fun v hv => hop v (by rw [hv]; exact List.mem_cons_self ..)
    obtain ⟨i1, i2, i3⟩ := run_holds hh ops _ _ h2 h3 fun v hv => hop v (List.mem_cons_of_mem _ hv)
    simp only [MerkleTree.run, treeRun]
    exact ⟨by rw [h1, i1], i2, i3⟩

/-! ### A failed insertion -/

/-- The rows of a tree whose leftmost leaf `v` could not be hashed. -/
structure Spoilt (d v : ℕ) (nodes : List (List (Option ℕ))) : Prop where
  rows : nodes.length = d
  pos : 1 ≤ d
  leaf : (nodes.getD 0 []).getD 0 none = some v
  holes : ∀ l, 1 ≤ l → (nodes.getD l []).getD 0 none = none

theorem assign_getD_zero {row : List (Option ℕ)} {i v : ℕ} (hi : 1 ≤ i) :
    (assign row i v).getD 0 none = row.getD 0 none ∧ 0 < (assign row i v).length := by
  unfold assign
  cases row with
  | nil =>
    obtain ⟨i, rfl⟩ := Nat.exists_eq_add_of_le' hi
    simp [List.replicate_succ]
  | cons a row =>
    split_ifs
    · obtain ⟨i, rfl⟩ := Nat.exists_eq_add_of_le' hi
      simp
    · simp

theorem climb_spoilt {h : List ℕ → Option ℕ} {zs : List ℕ} {d v w : ℕ} (hv : h [v, w] = none) :
    ∀ (n l i node : ℕ) (nodes : List (List (Option ℕ))), l + n = d → 1 ≤ i → i < 2 ^ n → Spoilt d v nodes →
      (l = 0 → i = 1 → (nodes.getD 0 []).length = 1 ∧ node = w) →
      ∃ nodes', climb h zs n l i node nodes = (nodes', none) ∧ Spoilt d v nodes' ∧
        nodes'.getD 0 [] = if l = 0 then assign (nodes.getD 0 []) i node else nodes.getD 0 []
  | 0, l, i, node, nodes, _, h1, h2, _, _ => by simp at h2; omega
  | n + 1, l, i, node, nodes, hl, h1, h2, hs, hw => by
    obtain ⟨nodes1, hn1⟩ : ∃ nodes1, nodes1 = nodes.set l (assign (nodes.getD l []) i node) := ⟨_, rfl⟩
    have hld : l < nodes.length := by rw [hs.rows]; omega
    have hrow : nodes1.getD l [] = assign (nodes.getD l []) i node := by rw [hn1, getD_set_self hld]
    have hother : ∀ k, k ≠ l → nodes1.getD k [] = nodes.getD k [] := fun k hk => by rw [hn1, getD_set_ne hk]
    have hzero : ∀ k, (nodes1.getD k []).getD 0 none = (nodes.getD k []).getD 0 none := by
      intro k
      by_cases hk : k = l
      · subst hk; rw [hrow, (assign_getD_zero h1).1]
      · rw [hother k hk]
    have hs1 : Spoilt d v nodes1 :=
      ⟨by rw [hn1, List.length_set, hs.rows], hs.pos, by rw [hzero, hs.leaf], fun k hk => by rw [hzero, hs.holes k hk]⟩
    have hrow0 : nodes1.getD 0 [] = if l = 0 then assign (nodes.getD 0 []) i node else nodes.getD 0 [] := by
      split_ifs with h0
      · subst h0; exact hrow
      · exact hother 0 (Ne.symm h0)
    simp only [climb]
    rw [← hn1]
    cases hc : hashChildren h (nodeOrZero zs nodes1 l (i - i % 2)) (nodeOrZero zs nodes1 l (i - i % 2 + 1)) with
    | none => exact ⟨nodes1, rfl, hs1, hrow0⟩
    | some parent =>
      by_cases hi : i = 1
      · exfalso
        subst hi
        have hlen := (assign_getD_zero (row := nodes.getD l []) (v := node) (le_refl 1)).2
        have e0 : nodeOrZero zs nodes1 l (1 - 1 % 2) = (nodes1.getD l []).getD 0 none := by
          unfold nodeOrZero
          simp only [show 1 - 1 % 2 = 0 from rfl]
          rw [hrow, if_pos hlen]
        rw [e0] at hc
        rcases Nat.eq_zero_or_pos l with h0 | h0
        · subst h0
          obtain ⟨hl1, hnw⟩ := hw rfl rfl
          have e1 : nodeOrZero zs nodes1 0 (1 - 1 % 2 + 1) = some w := by
            unfold nodeOrZero
            simp only [show 1 - 1 % 2 + 1 = 1 from rfl]
            obtain ⟨a, ha⟩ := List.length_eq_one_iff.1 hl1
            rw [hrow, hnw, ha]
            rfl
          rw [hs1.leaf, e1] at hc
          simp only [hashChildren, Option.bind_eq_bind, Option.bind_some, hv] at hc
          cases hc
        · rw [hs1.holes l h0] at hc
          simp [hashChildren] at hc
      · obtain ⟨nodes', e, hs', hr'⟩ := climb_spoilt hv n (l + 1) (i / 2) parent nodes1 (by omega) (by omega)
          (by rw [pow_succ] at h2; omega) hs1 (by omega)
        exact ⟨nodes', e, hs', by rw [hr', if_neg (by omega), hrow0]⟩

end Spartan.Lib
