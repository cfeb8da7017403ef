import Verif.Model.SparseProof
import Verif.Lemmas.ProductTree
import Mathlib.Algebra.BigOperators.Group.Multiset.Basic
import Mathlib.Algebra.Order.Group.Multiset

/-! Lemmas about the timestamps and the hashed memory layers. -/

set_option linter.unusedSectionVars false

namespace Spartan
open Spec
variable {F G P : Type} [Field F] [AddCommGroup G] [Module F G]
  [DecidableEq F] [DecidableEq P] [DecidableEq G]

/-- The cells `0 .. n-1` with their counters. -/
def cellsM (n : Nat) (audit : List Nat) : Multiset (Nat × Nat) :=
  ∑ i ∈ Finset.range n, {(i, audit.getD i 0)}

theorem cellsM_set {n a : Nat} {audit : List Nat} (hl : audit.length = n) (ha : a < n) (t : Nat) :
    cellsM n audit + {(a, t)} = {(a, audit.getD a 0)} + cellsM n (audit.set a t) := by
  unfold cellsM
  have hm : a ∈ Finset.range n := Finset.mem_range.2 ha
  rw [← Finset.add_sum_erase _ _ hm, ← Finset.add_sum_erase (Finset.range n)
    (fun i => ({(i, (audit.set a t).getD i 0)} : Multiset (Nat × Nat))) hm]
  have h1 : (audit.set a t).getD a 0 = t := by
    simp [List.getD_eq_getElem?_getD, List.getElem?_set, hl, ha]
  have h2 : ∑ x ∈ (Finset.range n).erase a, ({(x, (audit.set a t).getD x 0)} : Multiset (Nat × Nat)) =
      ∑ x ∈ (Finset.range n).erase a, {(x, audit.getD x 0)} := by
    apply Finset.sum_congr rfl
    intro x hx
    have : a ≠ x := fun h => (Finset.mem_erase.1 hx).1 h.symm
    simp [List.getD_eq_getElem?_getD, List.getElem?_set, this]
  rw [h2, h1]
  abel

/-- Pairs (address, timestamp) of the operations. -/
def opsM (ops rs : List Nat) : Multiset (Nat × Nat) := (List.zip ops rs : List (Nat × Nat))

theorem tsLoop_ok (cells : Nat) : ∀ (ops audit : List Nat), audit.length = cells →
    (∀ a ∈ ops, a < cells) → ∃ rs audit', tsLoop cells ops audit = .ok (rs, audit') ∧
      rs.length = ops.length ∧ audit'.length = cells ∧
      cellsM cells audit + opsM ops (rs.map (· + 1)) = opsM ops rs + cellsM cells audit'
  | [], audit, hl, _ => ⟨[], audit, rfl, rfl, hl, by simp [opsM]⟩
  | a :: ops, audit, hl, h => by
    have ha := h a (by simp)
    obtain ⟨rs, audit', h1, h2, h3, h4⟩ := tsLoop_ok cells ops (audit.set a (audit.getD a 0 + 1))
      (by simp [hl]) fun x hx => h x (by simp [hx])
    refine ⟨audit.getD a 0 :: rs, audit', ?_, by simp [h2], h3, ?_⟩
    · unfold tsLoop
      rw [check_true ha, ok_bind, idx_ok (by rw [hl]; exact ha) 0, ok_bind, h1, ok_bind]
      rfl
    · have e1 : opsM (a :: ops) ((audit.getD a 0 :: rs).map (· + 1)) =
          {(a, audit.getD a 0 + 1)} + opsM ops (rs.map (· + 1)) := by
        simp [opsM, ← Multiset.cons_coe]
      have e2 : opsM (a :: ops) (audit.getD a 0 :: rs) = {(a, audit.getD a 0)} + opsM ops rs := by
        simp [opsM, ← Multiset.cons_coe]
      rw [e1, e2, ← add_assoc, cellsM_set hl ha, add_assoc, h4, add_assoc]

/-- Running the loop and the converse: it panics on an address outside the memory. -/
theorem tsLoop_panic (cells : Nat) : ∀ (ops audit : List Nat), audit.length = cells →
    ¬ (∀ a ∈ ops, a < cells) → tsLoop cells ops audit = .error .panic
  | [], _, _, h => absurd (by simp) h
  | a :: ops, audit, hl, h => by
    unfold tsLoop
    by_cases ha : a < cells
    · rw [check_true ha, ok_bind, idx_ok (by rw [hl]; exact ha) 0, ok_bind,
        tsLoop_panic cells ops _ (by simp [hl]) (fun h' => h fun x hx => ?_)]
      · rfl
      · rcases List.mem_cons.1 hx with rfl | hx
        · exact ha
        · exact h' x hx
    · rw [check_false ha]; rfl

/-- Pairs of all instances. -/
def opssM (ops rss : List (List Nat)) : Multiset (Nat × Nat) :=
  ((List.zipWith opsM ops rss).sum : Multiset (Nat × Nat))

theorem tsLoops_ok (cells : Nat) : ∀ (ops : List (List Nat)) (audit : List Nat), audit.length = cells →
    (∀ o ∈ ops, ∀ a ∈ o, a < cells) → ∃ rss audit', tsLoops cells ops audit = .ok (rss, audit') ∧
      rss.length = ops.length ∧ (∀ i < ops.length, (rss.getD i []).length = (ops.getD i []).length) ∧
      audit'.length = cells ∧
      cellsM cells audit + opssM ops (rss.map fun r => r.map (· + 1)) = opssM ops rss + cellsM cells audit'
  | [], audit, hl, _ => ⟨[], audit, rfl, rfl, by simp, hl, by simp [opssM]⟩
  | o :: ops, audit, hl, h => by
    obtain ⟨rs, audit1, h1, h2, h3, h4⟩ := tsLoop_ok cells o audit hl (h o (by simp))
    obtain ⟨rss, audit', g1, g2, g3, g4, g5⟩ := tsLoops_ok cells ops audit1 h3
      fun x hx => h x (by simp [hx])
    refine ⟨rs :: rss, audit', ?_, by simp [g2], ?_, g4, ?_⟩
    · unfold tsLoops
      rw [h1, ok_bind]
      simp only
      rw [g1, ok_bind]; rfl
    · intro i hi
      cases i with
      | zero => simpa using h2
      | succ i => simpa using g3 i (by simpa using hi)
    · have e1 : opssM (o :: ops) ((rs :: rss).map fun r => r.map (· + 1)) =
          opsM o (rs.map (· + 1)) + opssM ops (rss.map fun r => r.map (· + 1)) := by simp [opssM]
      have e2 : opssM (o :: ops) (rs :: rss) = opsM o rs + opssM ops rss := by simp [opssM]
      rw [e1, e2, ← add_assoc, h4, add_assoc, g5, add_assoc]

theorem fromUsize_ok {n : Nat} {Z : List Nat} (h : Z.length = 2 ^ n) :
    (Dense.fromUsize Z : Out (Dense F)) = .ok (dn n (Z.map fun (x : Nat) => (x : F))) := by
  unfold Dense.fromUsize
  exact dn_new (by simpa using h)

theorem mapM_fromUsize {n : Nat} : ∀ (Zs : List (List Nat)), (∀ Z ∈ Zs, Z.length = 2 ^ n) →
    (Zs.mapM Dense.fromUsize : Out (List (Dense F))) =
      .ok (Zs.map fun Z => dn n (Z.map fun (x : Nat) => (x : F)))
  | [], _ => rfl
  | Z :: Zs, h => by
    rw [List.mapM_cons, fromUsize_ok (h Z (by simp)), ok_bind,
      mapM_fromUsize Zs fun x hx => h x (by simp [hx]), ok_bind]
    rfl

/-- Explicit form of the timestamps of access lists. -/
def addrTs (m n : Nat) (ops rss : List (List Nat)) (audit : List Nat) : AddrTs F :=
  ⟨ops, ops.map fun Z => dn n (Z.map fun (x : Nat) => (x : F)), rss.map fun Z => dn n (Z.map fun (x : Nat) => (x : F)),
    dn m (audit.map fun (x : Nat) => (x : F))⟩

theorem addrTs_new {m n : Nat} {ops : List (List Nat)} (hl : ∀ o ∈ ops, o.length = 2 ^ n)
    (hb : ∀ o ∈ ops, ∀ a ∈ o, a < 2 ^ m) :
    ∃ rss audit, AddrTs.new (F := F) (2 ^ m) (2 ^ n) ops = .ok (addrTs m n ops rss audit) ∧
      rss.length = ops.length ∧ (∀ r ∈ rss, r.length = 2 ^ n) ∧ audit.length = 2 ^ m ∧
      cellsM (2 ^ m) (List.replicate (2 ^ m) 0) + opssM ops (rss.map fun r => r.map (· + 1)) =
        opssM ops rss + cellsM (2 ^ m) audit := by
  obtain ⟨rss, audit, h1, h2, h3, h4, h5⟩ := tsLoops_ok (2 ^ m) ops (List.replicate (2 ^ m) 0) (by simp) hb
  have hr : ∀ r ∈ rss, r.length = 2 ^ n := by
    intro r hr
    obtain ⟨i, hi, rfl⟩ := List.getElem_of_mem hr
    have := h3 i (by omega)
    rw [List.getD_eq_getElem _ _ hi, List.getD_eq_getElem _ _ (by omega)] at this
    rw [this, hl _ (List.getElem_mem _)]
  refine ⟨rss, audit, ?_, h2, hr, h4, h5⟩
  unfold AddrTs.new
  rw [check_true hl, ok_bind, h1, ok_bind]
  simp only
  rw [mapM_fromUsize ops hl, ok_bind, mapM_fromUsize rss hr, ok_bind, fromUsize_ok h4, ok_bind]
  rfl

theorem mapM_idx_mem (mem : List F) : ∀ (o : List Nat), (∀ a ∈ o, a < mem.length) →
    (o.mapM fun a => idx mem a) = .ok (o.map fun a => mem.getD a 0)
  | [], _ => rfl
  | a :: o, h => by
    rw [List.mapM_cons, idx_ok (h a (by simp)) 0, ok_bind,
      mapM_idx_mem mem o fun x hx => h x (by simp [hx]), ok_bind]
    rfl

theorem deref_eq {m n : Nat} {rss : List (List Nat)} {audit : List Nat} {mem : List F}
    (hm : mem.length = 2 ^ m) : ∀ (ops : List (List Nat)), (∀ o ∈ ops, o.length = 2 ^ n) →
    (∀ o ∈ ops, ∀ a ∈ o, a < 2 ^ m) →
    (addrTs m n ops rss audit).deref mem = .ok (ops.map fun o => dn n (o.map fun a => mem.getD a 0))
  | [], _, _ => rfl
  | o :: ops, hl, hb => by
    have ih := deref_eq (rss := rss) (audit := audit) hm ops (fun x hx => hl x (by simp [hx]))
      (fun x hx => hb x (by simp [hx]))
    unfold AddrTs.deref addrTs at ih ⊢
    simp only at ih ⊢
    rw [List.mapM_cons, mapM_idx_mem mem o (by rw [hm]; exact hb o (by simp)), ok_bind,
      dn_new (n := n) (by simpa using hl o (by simp)), ok_bind, ih, ok_bind]
    rfl

/-! ### Hashed tables -/

/-- Hashes of the cells with timestamps `ts`. -/
def cellT (rh g : F) (table ts : List F) : List F :=
  (List.range table.length).map fun (i : Nat) => memHash rh (i : F) (table.getD i 0) (ts.getD i 0) - g

/-- Hashes of operations. -/
def opsT (rh g : F) (addr val ts : List F) : List F :=
  (List.range addr.length).map fun i => memHash rh (addr.getD i 0) (val.getD i 0) (ts.getD i 0) - g

theorem cellT_length (rh g : F) (table ts : List F) : (cellT rh g table ts).length = table.length := by
  simp [cellT]

theorem opsT_length (rh g : F) (a v t : List F) : (opsT rh g a v t).length = a.length := by
  simp [opsT]

/-- A product layer built from tables. -/
def layerOf (m n : Nat) (I : List F) (Rs Ws : List (List F)) (A : List F) : ProdLayer F :=
  ⟨circ m I, Rs.map (circ n), Ws.map (circ n), circ m A⟩

theorem mapM_circ_evaluate {n : Nat} (hn : 1 ≤ n) : ∀ (Ts : List (List F)), (∀ T ∈ Ts, T.length = 2 ^ n) →
    (Ts.map (circ n)).mapM ProductCircuit.evaluate = .ok (Ts.map List.prod)
  | [], _ => rfl
  | T :: Ts, h => by
    rw [List.map_cons, List.mapM_cons, circ_evaluate hn (h T (by simp)), ok_bind,
      mapM_circ_evaluate hn Ts fun x hx => h x (by simp [hx]), ok_bind]
    rfl

theorem mapM_circ_new {n : Nat} (hn : 1 ≤ n) : ∀ (Ts : List (List F)), (∀ T ∈ Ts, T.length = 2 ^ n) →
    (Ts.map (dn n)).mapM ProductCircuit.new = .ok (Ts.map (circ n))
  | [], _ => rfl
  | T :: Ts, h => by
    rw [List.map_cons, List.mapM_cons, circ_new hn (h T (by simp)), ok_bind,
      mapM_circ_new hn Ts fun x hx => h x (by simp [hx]), ok_bind]
    rfl

theorem layerOf_evals {m n : Nat} (hm : 1 ≤ m) (hn : 1 ≤ n) {I A : List F} {Rs Ws : List (List F)}
    (hI : I.length = 2 ^ m) (hA : A.length = 2 ^ m) (hR : ∀ T ∈ Rs, T.length = 2 ^ n)
    (hW : ∀ T ∈ Ws, T.length = 2 ^ n)
    (h : I.prod * (Ws.map List.prod).prod = (Rs.map List.prod).prod * A.prod) :
    (layerOf m n I Rs Ws A).evals = .ok ⟨I.prod, Rs.map List.prod, Ws.map List.prod, A.prod⟩ := by
  unfold ProdLayer.evals layerOf
  simp only
  rw [circ_evaluate hm hI, ok_bind, circ_evaluate hm hA, ok_bind, mapM_circ_evaluate hn Rs hR, ok_bind,
    mapM_circ_evaluate hn Ws hW, ok_bind, check_true h, ok_bind]
  rfl

theorem hashOps_eq {n : Nat} {a v t : List F} (ha : a.length = 2 ^ n) (hv : v.length = 2 ^ n)
    (ht : t.length = 2 ^ n) (rh g : F) :
    hashOps rh g (dn n a) (dn n v) (dn n t) =
      .ok (dn n (opsT rh g a v t), dn n (opsT rh g a v (t.map (· + 1)))) := by
  unfold hashOps
  rw [check_true (by simp only [dn_len]; omega), ok_bind, check_true (by simp only [dn_len]; omega),
    ok_bind, check_true (by simp only [dn]; omega), ok_bind]
  simp only [dn_len]
  have e1 : ((List.range a.length).map fun i =>
      memHash rh ((dn n a).Z.getD i 0) ((dn n v).Z.getD i 0) ((dn n t).Z.getD i 0) - g) =
      opsT rh g a v t := rfl
  have e2 : ((List.range a.length).map fun i =>
      memHash rh ((dn n a).Z.getD i 0) ((dn n v).Z.getD i 0) ((dn n t).Z.getD i 0 + 1) - g) =
      opsT rh g a v (t.map (· + 1)) := by
    unfold opsT
    apply List.map_congr_left
    intro i hi
    have hi : i < t.length := by rw [ht, ← ha]; simpa using hi
    simp [dn, List.getD_eq_getElem?_getD, hi]
  rw [e1, e2, dn_new (by rw [opsT_length, ha]), ok_bind, dn_new (by rw [opsT_length, ha]), ok_bind]
  rfl

/-- The tables of reads with timestamps shifted by `s`. -/
def rwTabs (rh g : F) (s : F) (addrs vals tss : List (List F)) : List (List F) :=
  (List.range addrs.length).map fun i =>
    opsT rh g (addrs.getD i []) (vals.getD i []) ((tss.getD i []).map (· + s))

theorem layersNew_eq {m n : Nat} (hm : 1 ≤ m) (hn : 1 ≤ n) (rh g : F) {table : List F}
    (ht : table.length = 2 ^ m) {addrs vals tss : List (List F)} {audit : List F}
    (hA : ∀ i < addrs.length, (addrs.getD i []).length = 2 ^ n)
    (hV : ∀ i < addrs.length, (vals.getD i []).length = 2 ^ n)
    (hT : ∀ i < addrs.length, (tss.getD i []).length = 2 ^ n)
    (hvl : vals.length = addrs.length) (htl : tss.length = addrs.length)
    (hau : audit.length = 2 ^ m) (ou : List (List Nat)) :
    layersNew rh g table ⟨ou, addrs.map (dn n), tss.map (dn n), dn m audit⟩ (vals.map (dn n)) =
      .ok (layerOf m n (cellT rh g table (List.replicate (2 ^ m) 0)) (rwTabs rh g 0 addrs vals tss)
        (rwTabs rh g 1 addrs vals tss) (cellT rh g table audit)) := by
  have hmap : ((List.range (addrs.map (dn n)).length).mapM fun i => do
      let a ← idx (addrs.map (dn n)) i
      let d ← idx (vals.map (dn n)) i
      let t ← idx (tss.map (dn n)) i
      hashOps rh g a d t) = .ok ((List.range addrs.length).map fun i =>
        (dn n (opsT rh g (addrs.getD i []) (vals.getD i []) (tss.getD i [])),
         dn n (opsT rh g (addrs.getD i []) (vals.getD i []) ((tss.getD i []).map (· + 1))))) := by
    rw [List.length_map]
    have : ∀ l : List Nat, (∀ i ∈ l, i < addrs.length) → (l.mapM fun i => do
      let a ← idx (addrs.map (dn n)) i
      let d ← idx (vals.map (dn n)) i
      let t ← idx (tss.map (dn n)) i
      hashOps rh g a d t) = .ok (l.map fun i =>
        (dn n (opsT rh g (addrs.getD i []) (vals.getD i []) (tss.getD i [])),
         dn n (opsT rh g (addrs.getD i []) (vals.getD i []) ((tss.getD i []).map (· + 1))))) := by
      intro l
      induction l with
      | nil => intro _; rfl
      | cons i l ih =>
        intro hl
        have hi := hl i (by simp)
        have gd : ∀ (L : List (List F)), i < L.length → (L.map (dn n)).getD i (dn n []) = dn n (L.getD i []) := by
          intro L hL
          simp [List.getD_eq_getElem?_getD, hL]
        rw [List.mapM_cons, idx_ok (by simpa using hi) (dn n []), ok_bind,
          idx_ok (by simpa [hvl] using hi) (dn n []), ok_bind,
          idx_ok (by simpa [htl] using hi) (dn n []), ok_bind, gd _ hi, gd _ (by omega), gd _ (by omega),
          hashOps_eq (hA i hi) (hV i hi) (hT i hi), ok_bind, ih fun x hx => hl x (by simp [hx]), ok_bind]
        rfl
    exact this _ fun i hi => List.mem_range.1 hi
  unfold layersNew buildHashLayer
  simp only
  have e1 : ((List.range table.length).map fun (i : Nat) => memHash rh (i : F) (table.getD i 0) 0 - g) =
      cellT rh g table (List.replicate (2 ^ m) 0) := by
    unfold cellT
    apply List.map_congr_left
    intro i _
    by_cases hi : i < 2 ^ m <;> simp [List.getD_eq_getElem?_getD, hi]
  have e2 : ((List.range table.length).map fun (i : Nat) =>
      memHash rh (i : F) (table.getD i 0) ((dn m audit).Z.getD i 0) - g) = cellT rh g table audit := rfl
  rw [e1, e2, dn_new (n := m) (by rw [cellT_length, ht]), ok_bind, check_true (by simp only [dn]; omega),
    ok_bind, dn_new (n := m) (by rw [cellT_length, ht]), ok_bind, hmap, ok_bind, pure_ok, ok_bind]
  simp only
  rw [circ_new hm (by rw [cellT_length, ht]), ok_bind]
  have hr : (((List.range addrs.length).map fun i =>
        (dn n (opsT rh g (addrs.getD i []) (vals.getD i []) (tss.getD i [])),
         dn n (opsT rh g (addrs.getD i []) (vals.getD i []) ((tss.getD i []).map (· + 1))))).map (·.1)) =
      (rwTabs rh g 0 addrs vals tss).map (dn n) := by
    unfold rwTabs
    rw [List.map_map, List.map_map]
    apply List.map_congr_left
    intro i _
    simp
  have hw : (((List.range addrs.length).map fun i =>
        (dn n (opsT rh g (addrs.getD i []) (vals.getD i []) (tss.getD i [])),
         dn n (opsT rh g (addrs.getD i []) (vals.getD i []) ((tss.getD i []).map (· + 1))))).map (·.2)) =
      (rwTabs rh g 1 addrs vals tss).map (dn n) := by
    unfold rwTabs
    rw [List.map_map, List.map_map]
    apply List.map_congr_left
    intro i _
    simp
  have hlen : ∀ s : F, ∀ T ∈ rwTabs rh g s addrs vals tss, T.length = 2 ^ n := by
    intro s T hT'
    obtain ⟨i, hi, rfl⟩ := List.mem_map.1 hT'
    rw [opsT_length, hA i (List.mem_range.1 hi)]
  rw [hr, hw, mapM_circ_new hn _ (hlen 0), ok_bind, mapM_circ_new hn _ (hlen 1), ok_bind,
    circ_new hm (by rw [cellT_length, ht]), ok_bind]
  rfl

/-! ### Products -/

/-- Hash of an (address, timestamp) pair for memory `mem`. -/
def pairHash (rh g : F) (mem : List F) (p : Nat × Nat) : F :=
  memHash rh (p.1 : F) (mem.getD p.1 0) (p.2 : F) - g

theorem cellsM_prod (rh g : F) (mem : List F) (audit : List Nat) :
    ((cellsM mem.length audit).map (pairHash rh g mem)).prod =
      (cellT rh g mem (audit.map fun (x : Nat) => (x : F))).prod := by
  have key : ∀ n, ((cellsM n audit).map (pairHash rh g mem)).prod =
      ((List.range n).map fun (i : Nat) =>
        memHash rh (i : F) (mem.getD i 0) ((audit.map fun (x : Nat) => (x : F)).getD i 0) - g).prod := by
    intro n
    induction n with
    | zero => simp [cellsM]
    | succ n ih =>
      have : cellsM (n + 1) audit = cellsM n audit + {(n, audit.getD n 0)} := by
        unfold cellsM; rw [Finset.sum_range_succ]
      rw [this, Multiset.map_add, Multiset.prod_add, ih, List.range_succ, List.map_append,
        List.prod_append]
      congr 1
      simp only [Multiset.map_singleton, Multiset.prod_singleton, List.map_cons, List.map_nil,
        List.prod_singleton, pairHash]
      have e : ((audit.getD n 0 : Nat) : F) = (audit.map fun (x : Nat) => (x : F)).getD n 0 := by
        by_cases h : n < audit.length <;> simp [List.getD_eq_getElem?_getD, h]
      rw [e]
  exact key _

theorem opsM_prod (rh g : F) (mem : List F) : ∀ {o r : List Nat}, r.length = o.length →
    ((opsM o r).map (pairHash rh g mem)).prod =
      (opsT rh g (o.map fun (x : Nat) => (x : F)) (o.map fun a => mem.getD a 0) (r.map fun (x : Nat) => (x : F))).prod
  | [], r, h => by
    simp [opsM, opsT]
  | a :: o, [], h => by simp at h
  | a :: o, t :: r, h => by
    have ih := opsM_prod rh g mem (o := o) (r := r) (by simpa using h)
    have : opsM (a :: o) (t :: r) = {(a, t)} + opsM o r := by simp [opsM, ← Multiset.cons_coe]
    rw [this, Multiset.map_add, Multiset.prod_add, ih]
    unfold opsT
    simp only [List.map_cons, List.length_cons, List.range_succ_eq_map, List.map_map, List.prod_cons]
    congr 1
    simp [pairHash]

theorem opssM_prod (rh g : F) (mem : List F) : ∀ {ops rss : List (List Nat)}, rss.length = ops.length →
    (∀ i < ops.length, (rss.getD i []).length = (ops.getD i []).length) →
    ((opssM ops rss).map (pairHash rh g mem)).prod =
      ((List.range ops.length).map fun i => (opsT rh g ((ops.getD i []).map fun (x : Nat) => (x : F))
        ((ops.getD i []).map fun a => mem.getD a 0) ((rss.getD i []).map fun (x : Nat) => (x : F))).prod).prod
  | [], rss, _, _ => by simp [opssM]
  | o :: ops, [], h, _ => by simp at h
  | o :: ops, r :: rss, h, hi => by
    have ih := opssM_prod rh g mem (ops := ops) (rss := rss) (by simpa using h)
      (fun i h' => by simpa using hi (i + 1) (by simpa using h'))
    have : opssM (o :: ops) (r :: rss) = opsM o r + opssM ops rss := by simp [opssM]
    rw [this, Multiset.map_add, Multiset.prod_add, ih, opsM_prod rh g mem (by simpa using hi 0 (by simp))]
    simp only [List.length_cons, List.range_succ_eq_map, List.map_cons, List.map_map, List.prod_cons]
    congr 1

theorem getD_map_nil {α β : Type} (f : α → β) (L : List (List α)) (i : Nat) :
    (L.map fun Z => Z.map f).getD i [] = (L.getD i []).map f := by
  by_cases h : i < L.length <;> simp [List.getD_eq_getElem?_getD, h]

/-- The subset check of the prover holds for the tables derived from any access lists. -/
theorem memory_products (rh g : F) {mem : List F} {ops rss : List (List Nat)} {audit : List Nat}
    (h : rss.length = ops.length)
    (hi : ∀ i < ops.length, (rss.getD i []).length = (ops.getD i []).length)
    (hM : cellsM mem.length (List.replicate mem.length 0) + opssM ops (rss.map fun r => r.map (· + 1)) =
      opssM ops rss + cellsM mem.length audit) :
    (cellT rh g mem (List.replicate mem.length 0)).prod *
      ((rwTabs rh g 1 (ops.map fun o => o.map fun (x : Nat) => (x : F)) (ops.map fun o => o.map fun a => mem.getD a 0)
        (rss.map fun r => r.map fun (x : Nat) => (x : F))).map List.prod).prod =
    ((rwTabs rh g 0 (ops.map fun o => o.map fun (x : Nat) => (x : F)) (ops.map fun o => o.map fun a => mem.getD a 0)
        (rss.map fun r => r.map fun (x : Nat) => (x : F))).map List.prod).prod *
      (cellT rh g mem (audit.map fun (x : Nat) => (x : F))).prod := by
  have hp := congrArg (fun M => (Multiset.map (pairHash rh g mem) M).prod) hM
  simp only [Multiset.map_add, Multiset.prod_add] at hp
  rw [cellsM_prod, cellsM_prod, opssM_prod rh g mem h hi, opssM_prod rh g mem (by simpa using h) ?_] at hp
  · have e0 : ((List.replicate mem.length 0).map fun (x : Nat) => (x : F)) = List.replicate mem.length 0 := by
      simp
    rw [e0] at hp
    have e1 : ∀ (s : Nat), ((rwTabs rh g (s : F) (ops.map fun o => o.map fun (x : Nat) => (x : F))
        (ops.map fun o => o.map fun a => mem.getD a 0)
        (rss.map fun r => r.map fun (x : Nat) => (x : F))).map List.prod) =
        (List.range ops.length).map fun i => (opsT rh g ((ops.getD i []).map fun (x : Nat) => (x : F))
          ((ops.getD i []).map fun a => mem.getD a 0)
          (((rss.map fun r => r.map (· + s)).getD i []).map fun (x : Nat) => (x : F))).prod := by
      intro s
      unfold rwTabs
      rw [List.map_map, List.length_map]
      apply List.map_congr_left
      intro i _
      simp only [Function.comp]
      rw [getD_map_nil, getD_map_nil, getD_map_nil, getD_map_nil, List.map_map, List.map_map]
      congr 2
      apply List.map_congr_left
      intro x _
      simp
    have a0 := e1 0
    have a1 := e1 1
    rw [Nat.cast_zero] at a0
    rw [Nat.cast_one] at a1
    rw [a0, a1]
    simpa using hp
  · intro i h'
    rw [getD_map_nil, List.length_map]
    exact hi i h'

end Spartan
