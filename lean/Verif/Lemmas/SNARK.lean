import Verif.Lemmas.SparseProof
import Verif.Lemmas.NIZK

/-! Lemmas about the commitment to sparse matrices and the completeness of the sparse evaluation
proof. -/

set_option linter.unusedSectionVars false

namespace Spartan
open Spec
variable {F G P : Type} [Field F] [AddCommGroup G] [Module F G]
  [DecidableEq F] [DecidableEq P] [DecidableEq G]

/-- Rows, columns and values of a matrix padded to `N` entries. -/
def padRowsOf (N : Nat) (m : SparseMat F) : List Nat := m.M.map (·.row) ++ List.replicate (N - m.M.length) 0
def padColsOf (N : Nat) (m : SparseMat F) : List Nat := m.M.map (·.col) ++ List.replicate (N - m.M.length) 0
def padValsOf (N : Nat) (m : SparseMat F) : List F := m.M.map (·.val) ++ List.replicate (N - m.M.length) 0

theorem numNz_eq (m : SparseMat F) : m.numNz = 2 ^ Nat.clog 2 m.M.length := rfl

/-- The common number of variables for the entries of three matrices. -/
def nzVars (A B C : SparseMat F) : Nat :=
  max (max (Nat.clog 2 A.M.length) (Nat.clog 2 B.M.length)) (Nat.clog 2 C.M.length)

theorem nz_eq (A B C : SparseMat F) :
    nextPow2 (([A, B, C].map SparseMat.numNz).foldl max 0) = 2 ^ nzVars A B C := by
  have hmax : ∀ a b : Nat, max (2 ^ a) (2 ^ b) = 2 ^ max a b := by
    intro a b
    rcases le_total a b with h | h
    · rw [max_eq_right h, max_eq_right (Nat.pow_le_pow_right (by norm_num) h)]
    · rw [max_eq_left h, max_eq_left (Nat.pow_le_pow_right (by norm_num) h)]
  simp only [List.map_cons, List.map_nil, List.foldl_cons, List.foldl_nil, numNz_eq, Nat.zero_max, hmax]
  exact nextPow2_pow _

theorem natCast_padZeros (l : List Nat) (k : Nat) :
    ((l ++ List.replicate k 0).map fun (x : Nat) => (x : F)) = (l.map fun (x : Nat) => (x : F)) ++ List.replicate k 0 := by
  simp

/-- The dense representation of three matrices. -/
theorem multiDense_ok {A B C : SparseMat F} {k l n : Nat}
    (hx : A.nx = k ∧ B.nx = k ∧ C.nx = k) (hy : A.ny = l ∧ B.ny = l ∧ C.ny = l)
    (hA : A.InRange (2 ^ k) (2 ^ l)) (hB : B.InRange (2 ^ k) (2 ^ l)) (hC : C.InRange (2 ^ k) (2 ^ l))
    (hn : n = nzVars A B C) :
    ∃ D rss audit css caudit, multiDense [A, B, C] = .ok D ∧
      D.row = addrTs (max k l) n ([A, B, C].map (padRowsOf (2 ^ n))) rss audit ∧
      D.col = addrTs (max k l) n ([A, B, C].map (padColsOf (2 ^ n))) css caudit ∧
      (rss.length = 3 ∧ (∀ r ∈ rss, r.length = 2 ^ n) ∧ audit.length = 2 ^ max k l ∧
        cellsM (2 ^ max k l) (List.replicate (2 ^ max k l) 0) +
          opssM ([A, B, C].map (padRowsOf (2 ^ n))) (rss.map fun r => r.map (· + 1)) =
        opssM ([A, B, C].map (padRowsOf (2 ^ n))) rss + cellsM (2 ^ max k l) audit) ∧
      (css.length = 3 ∧ (∀ r ∈ css, r.length = 2 ^ n) ∧ caudit.length = 2 ^ max k l ∧
        cellsM (2 ^ max k l) (List.replicate (2 ^ max k l) 0) +
          opssM ([A, B, C].map (padColsOf (2 ^ n))) (css.map fun r => r.map (· + 1)) =
        opssM ([A, B, C].map (padColsOf (2 ^ n))) css + cellsM (2 ^ max k l) caudit) ∧
      D.Tabs (max k l) n ([A, B, C].map fun m => (padRowsOf (2 ^ n) m).map fun (x : Nat) => (x : F))
        (rss.map fun r => r.map fun (x : Nat) => (x : F))
        ([A, B, C].map fun m => (padColsOf (2 ^ n) m).map fun (x : Nat) => (x : F))
        (css.map fun r => r.map fun (x : Nat) => (x : F)) ([A, B, C].map (padValsOf (2 ^ n)))
        (audit.map fun (x : Nat) => (x : F)) (caudit.map fun (x : Nat) => (x : F)) := by
  have hle : ∀ m ∈ [A, B, C], m.numNz ≤ 2 ^ n := by
    intro m hm
    rw [numNz_eq, hn]
    apply Nat.pow_le_pow_right (by norm_num)
    unfold nzVars
    simp only [List.mem_cons, List.not_mem_nil, or_false] at hm
    rcases hm with rfl | rfl | rfl <;> simp
  have hlen : ∀ m ∈ [A, B, C], m.M.length ≤ 2 ^ n := fun m hm => (le_nextPow2 _).trans (hle m hm)
  have hrange : ∀ m ∈ [A, B, C], m.InRange (2 ^ k) (2 ^ l) := by
    intro m hm
    simp only [List.mem_cons, List.not_mem_nil, or_false] at hm
    rcases hm with rfl | rfl | rfl <;> assumption
  have hkm : 2 ^ k ≤ 2 ^ max k l := Nat.pow_le_pow_right (by norm_num) (le_max_left _ _)
  have hlm : 2 ^ l ≤ 2 ^ max k l := Nat.pow_le_pow_right (by norm_num) (le_max_right _ _)
  have hpr : ∀ o ∈ [A, B, C].map (padRowsOf (2 ^ n)), o.length = 2 ^ n := by
    intro o ho
    obtain ⟨m, hm, rfl⟩ := List.mem_map.1 ho
    have := hlen m hm
    simp [padRowsOf]; omega
  have hpc : ∀ o ∈ [A, B, C].map (padColsOf (2 ^ n)), o.length = 2 ^ n := by
    intro o ho
    obtain ⟨m, hm, rfl⟩ := List.mem_map.1 ho
    have := hlen m hm
    simp [padColsOf]; omega
  have hpv : ∀ o ∈ [A, B, C].map (padValsOf (2 ^ n)), o.length = 2 ^ n := by
    intro o ho
    obtain ⟨m, hm, rfl⟩ := List.mem_map.1 ho
    have := hlen m hm
    simp [padValsOf]; omega
  have hbr : ∀ o ∈ [A, B, C].map (padRowsOf (2 ^ n)), ∀ a ∈ o, a < 2 ^ max k l := by
    intro o ho a ha
    obtain ⟨m, hm, rfl⟩ := List.mem_map.1 ho
    rw [padRowsOf, List.mem_append] at ha
    rcases ha with ha | ha
    · obtain ⟨e, he, rfl⟩ := List.mem_map.1 ha
      exact lt_of_lt_of_le (hrange m hm e he).1 hkm
    · rw [List.eq_of_mem_replicate ha]; positivity
  have hbc : ∀ o ∈ [A, B, C].map (padColsOf (2 ^ n)), ∀ a ∈ o, a < 2 ^ max k l := by
    intro o ho a ha
    obtain ⟨m, hm, rfl⟩ := List.mem_map.1 ho
    rw [padColsOf, List.mem_append] at ha
    rcases ha with ha | ha
    · obtain ⟨e, he, rfl⟩ := List.mem_map.1 ha
      exact lt_of_lt_of_le (hrange m hm e he).2 hlm
    · rw [List.eq_of_mem_replicate ha]; positivity
  obtain ⟨rss, audit, r1, r2, r3, r4, r5⟩ := addrTs_new (F := F) hpr hbr
  obtain ⟨css, caudit, c1, c2, c3, c4, c5⟩ := addrTs_new (F := F) hpc hbc
  set ra := [A, B, C].map fun m => (padRowsOf (2 ^ n) m).map fun (x : Nat) => (x : F) with hra
  set rt := rss.map fun r => r.map fun (x : Nat) => (x : F) with hrt
  set ca := [A, B, C].map fun m => (padColsOf (2 ^ n) m).map fun (x : Nat) => (x : F) with hca
  set ct := css.map fun r => r.map fun (x : Nat) => (x : F) with hct
  set vs := [A, B, C].map (padValsOf (2 ^ n)) with hvs
  have htabs : ∀ T ∈ ra ++ rt ++ ca ++ ct ++ vs, T.length = 2 ^ n := by
    intro T hT
    simp only [List.mem_append] at hT
    rcases hT with (((hT | hT) | hT) | hT) | hT
    · obtain ⟨m, hm, rfl⟩ := List.mem_map.1 hT
      rw [List.length_map]; exact hpr _ (List.mem_map_of_mem hm)
    · obtain ⟨m, hm, rfl⟩ := List.mem_map.1 hT
      rw [List.length_map]; exact r3 _ hm
    · obtain ⟨m, hm, rfl⟩ := List.mem_map.1 hT
      rw [List.length_map]; exact hpc _ (List.mem_map_of_mem hm)
    · obtain ⟨m, hm, rfl⟩ := List.mem_map.1 hT
      rw [List.length_map]; exact c3 _ hm
    · exact hpv _ hT
  have lens : ra.length = 3 ∧ rt.length = 3 ∧ ca.length = 3 ∧ ct.length = 3 ∧ vs.length = 3 := by
    refine ⟨rfl, ?_, rfl, ?_, rfl⟩
    · rw [hrt, List.length_map, r2]; rfl
    · rw [hct, List.length_map, c2]; rfl
  have c16 : Nat.clog 2 15 = 4 := by decide +kernel
  have np16 : nextPow2 (ra ++ rt ++ ca ++ ct ++ vs).length = 2 ^ 4 := by
    simp [lens.1, lens.2.1, lens.2.2.1, lens.2.2.2.1, lens.2.2.2.2, nextPow2, c16]
  have no0 : ra ++ rt ++ ca ++ ct ++ vs ≠ [] := fun h => by
    have := congrArg List.length h; simp [lens.1] at this
  set row : AddrTs F := addrTs (max k l) n ([A, B, C].map (padRowsOf (2 ^ n))) rss audit with hrow
  set col : AddrTs F := addrTs (max k l) n ([A, B, C].map (padColsOf (2 ^ n))) css caudit with hcol
  refine ⟨⟨3, vs.map (dn n), row, col, dn (4 + n) (mergeT (ra ++ rt ++ ca ++ ct ++ vs)),
    dn (max k l + 1) ((audit.map fun (x : Nat) => (x : F)) ++ (caudit.map fun (x : Nat) => (x : F)))⟩, rss, audit, css,
    caudit, ?_, rfl, rfl, ⟨by rw [r2]; rfl, r3, r4, r5⟩, ⟨by rw [c2]; rfl, c3, c4, c5⟩, ?_⟩
  · unfold multiDense
    have hidx : idx [A, B, C] 0 = .ok A := rfl
    rw [hidx, ok_bind, check_true (by
      intro m hm
      simp only [List.mem_cons, List.not_mem_nil, or_false] at hm
      rcases hm with rfl | rfl | rfl
      · exact ⟨rfl, rfl⟩
      · exact ⟨hx.2.1.trans hx.1.symm, hy.2.1.trans hy.1.symm⟩
      · exact ⟨hx.2.2.trans hx.1.symm, hy.2.2.trans hy.1.symm⟩), ok_bind]
    simp only
    rw [nz_eq, ← hn]
    rw [mapM_ok _ (fun m => (padRowsOf (2 ^ n) m, padColsOf (2 ^ n) m, padValsOf (2 ^ n) m)) [A, B, C] (by
      intro m hm
      unfold SparseMat.toDense
      rw [check_true (hle m hm), ok_bind]
      rfl), ok_bind]
    have hv : (([A, B, C].map fun m => (padRowsOf (2 ^ n) m, padColsOf (2 ^ n) m, padValsOf (2 ^ n) m)).mapM
        fun d => Dense.new d.2.2) = .ok (vs.map (dn n)) := by
      rw [mapM_ok _ (fun d => dn n d.2.2)]
      · rfl
      · intro d hd
        obtain ⟨m, hm, rfl⟩ := List.mem_map.1 hd
        exact dn_new (hpv _ (List.mem_map_of_mem hm))
    rw [hv, ok_bind]
    have hcells : (if A.nx > A.ny then 2 ^ A.nx else 2 ^ A.ny) = 2 ^ max k l := by
      rw [hx.1, hy.1]
      split
      · rw [max_eq_left (by omega)]
      · rw [max_eq_right (by omega)]
    rw [hcells]
    have h1 : (([A, B, C].map fun m => (padRowsOf (2 ^ n) m, padColsOf (2 ^ n) m, padValsOf (2 ^ n) m)).map
        (·.1)) = [A, B, C].map (padRowsOf (2 ^ n)) := rfl
    have h2 : (([A, B, C].map fun m => (padRowsOf (2 ^ n) m, padColsOf (2 ^ n) m, padValsOf (2 ^ n) m)).map
        (·.2.1)) = [A, B, C].map (padColsOf (2 ^ n)) := rfl
    rw [h1, h2, r1, ok_bind, c1, ok_bind]
    have hm : row.addr ++ row.readTs ++ col.addr ++ col.readTs ++ vs.map (dn n) =
        (ra ++ rt ++ ca ++ ct ++ vs).map (dn n) := by
      simp only [hrow, hcol, addrTs, List.map_append, hra, hrt, hca, hct, List.map_map]
      rfl
    rw [hm, merge_dn no0 htabs np16, ok_bind]
    have he : row.auditTs.extend col.auditTs = .ok (dn (max k l + 1) ((audit.map fun (x : Nat) => (x : F)) ++
        (caudit.map fun (x : Nat) => (x : F)))) := by
      unfold Dense.extend
      rw [check_true (by simp [hrow, addrTs, dn]), ok_bind, check_true (by simp [hrow, hcol, addrTs, dn, r4, c4]), ok_bind, pure_ok]
      simp [hrow, hcol, addrTs, dn, r4, c4]
      ring
    rw [he, ok_bind]
    rfl
  · exact {
      batch := rfl
      rowAddr := by simp only [hrow, addrTs, hra, List.map_map]; rfl
      rowTs := by simp only [hrow, addrTs, hrt, List.map_map]; rfl
      rowAud := rfl
      colAddr := by simp only [hcol, addrTs, hca, List.map_map]; rfl
      colTs := by simp only [hcol, addrTs, hct, List.map_map]; rfl
      colAud := rfl
      val := rfl
      ops := rfl
      mem := rfl
      lens := lens
      tabs := htabs
      ru := by simpa using r4
      cu := by simpa using c4 }

/-! ### Equalised points -/

theorem chi_zeros_append (d : Nat) (r : List F) {i : Nat} (hi : i < 2 ^ r.length) :
    chi (List.replicate d 0 ++ r) i = chi r i := by
  have h0 : chi (List.replicate d (0 : F)) 0 = 1 := by
    unfold chi
    apply Finset.prod_eq_one
    intro j hj
    have hj := Finset.mem_range.1 hj
    rw [if_neg (by unfold bitBE; simp)]
    simp only [List.length_replicate] at hj
    simp [List.getD_eq_getElem?_getD, hj]
  have := chi_append (List.replicate d 0) r 0 i (by positivity) hi
  rw [Nat.zero_mul, Nat.zero_add, h0, one_mul] at this
  exact this

theorem equalize_ok {k l : Nat} {rx ry : List F} (hx : rx.length = k) (hy : ry.length = l) :
    (equalize rx ry).1.length = max k l ∧ (equalize rx ry).2.length = max k l ∧
      (∀ i < 2 ^ k, (eqEvals (equalize rx ry).1).getD i 0 = chi rx i) ∧
      (∀ i < 2 ^ l, (eqEvals (equalize rx ry).2).getD i 0 = chi ry i) := by
  subst hx hy
  have key : ∀ (d : Nat) (r : List F) (i : Nat), i < 2 ^ r.length →
      (eqEvals (List.replicate d 0 ++ r)).getD i 0 = chi r i := by
    intro d r i hi
    rw [(eqEvals_correct _).2 i (lt_of_lt_of_le hi (Nat.pow_le_pow_right (by norm_num) (by simp))),
      chi_zeros_append d r hi]
  have key0 : ∀ (r : List F) (i : Nat), i < 2 ^ r.length → (eqEvals r).getD i 0 = chi r i :=
    fun r i hi => (eqEvals_correct _).2 i hi
  unfold equalize
  split
  · rename_i h
    exact ⟨by simp; omega, by simp; omega, key _ _, key0 _⟩
  · split
    · exact ⟨by simp; omega, by simp; omega, key0 _, key _ _⟩
    · exact ⟨by simp; omega, by simp; omega, key0 _, key0 _⟩

/-! ### The value of a matrix -/

theorem matMLE_sum {m : SparseMat F} {k l : Nat} (h : m.InRange (2 ^ k) (2 ^ l)) {rx ry : List F}
    (hx : rx.length = k) (hy : ry.length = l) :
    matMLE m.triples rx ry = (m.M.map fun e => chi rx e.row * chi ry e.col * e.val).sum := by
  subst hx hy
  unfold matMLE
  have e : ∀ i ∈ Finset.range (2 ^ rx.length), ∑ j ∈ Finset.range (2 ^ ry.length),
      matEntry m.triples i j * (chi rx i * chi ry j) =
      chi rx i * (m.M.map fun e => if e.row = i then e.val * chi ry e.col else 0).sum := by
    intro i _
    rw [← matEntry_row_sum m i (2 ^ ry.length) (chi ry) (fun e he => (h e he).2), Finset.mul_sum]
    apply Finset.sum_congr rfl; intros; ring
  rw [Finset.sum_congr rfl e, sum_ite_sum (fun e : Entry F => e.row) (fun e => e.val * chi ry e.col)
    (chi rx) _ m.M (fun e he => (h e he).1)]
  congr 1; apply List.map_congr_left; intros; ring

/-- The inner product of the looked-up tables and the values is the value of the matrix. -/
theorem triSum_mat {m : SparseMat F} {k l n : Nat} (h : m.InRange (2 ^ k) (2 ^ l)) {rx ry : List F}
    (hx : rx.length = k) (hy : ry.length = l) (hn : m.M.length ≤ 2 ^ n) {memX memY : List F}
    (hX : ∀ i < 2 ^ k, memX.getD i 0 = chi rx i) (hY : ∀ i < 2 ^ l, memY.getD i 0 = chi ry i) :
    triSum n ((padRowsOf (2 ^ n) m).map fun a => memX.getD a 0, (padColsOf (2 ^ n) m).map fun a => memY.getD a 0,
      padValsOf (2 ^ n) m) = matMLE m.triples rx ry := by
  rw [matMLE_sum h hx hy, triSum]
  obtain ⟨d, hd⟩ := Nat.exists_eq_add_of_le hn
  rw [hd, Finset.sum_range_add]
  have z : ∑ x ∈ Finset.range d, ((padRowsOf (m.M.length + d) m).map fun a => memX.getD a 0).getD (m.M.length + x) 0 *
      ((padColsOf (m.M.length + d) m).map fun a => memY.getD a 0).getD (m.M.length + x) 0 *
      (padValsOf (m.M.length + d) m).getD (m.M.length + x) 0 = 0 := by
    apply Finset.sum_eq_zero
    intro x hx'
    have : (padValsOf (m.M.length + d) m).getD (m.M.length + x) 0 = 0 := by
      unfold padValsOf
      rw [List.getD_eq_getElem?_getD, List.getElem?_append_right (by simp)]
      simp [List.getElem?_replicate]
      split <;> rfl
    rw [this, mul_zero]
  simp only
  rw [z, add_zero, ← list_sum_range]
  have e : m.M.map (fun e => chi rx e.row * chi ry e.col * e.val) = (List.range m.M.length).map fun i =>
      ((padRowsOf (m.M.length + d) m).map fun a => memX.getD a 0).getD i 0 *
      ((padColsOf (m.M.length + d) m).map fun a => memY.getD a 0).getD i 0 *
      (padValsOf (m.M.length + d) m).getD i 0 := by
    apply List.ext_getElem (by simp)
    intro i h1 h2
    simp only [List.length_map] at h1
    have hr := h _ (List.getElem_mem h1)
    simp only [List.getElem_map, List.getElem_range, padRowsOf, padColsOf, padValsOf]
    simp [List.getD_eq_getElem?_getD, h1, List.getElem?_append_left]
    rw [← List.getD_eq_getElem?_getD, ← List.getD_eq_getElem?_getD, hX _ hr.1, hY _ hr.2]
    exact Or.inl rfl
  rw [e]

/-! ### Commitment and evaluation proof -/

theorem addrTs_layers {m n : Nat} (hm : 1 ≤ m) (hn : 1 ≤ n) (rh g : F) {mem : List F} (ht : mem.length = 2 ^ m)
    {ops rss : List (List Nat)} {audit : List Nat} (ho : ops.length = 3) (hr : rss.length = 3)
    (hol : ∀ o ∈ ops, o.length = 2 ^ n) (hrl : ∀ o ∈ rss, o.length = 2 ^ n) (ha : audit.length = 2 ^ m) :
    layersNew rh g mem (addrTs m n ops rss audit) (ops.map fun o => dn n (o.map fun a => mem.getD a 0)) =
      .ok (layerOf m n (cellT rh g mem (List.replicate (2 ^ m) 0))
        (rwTabs rh g 0 (ops.map fun o => o.map fun (x : Nat) => (x : F)) (ops.map fun o => o.map fun a => mem.getD a 0)
          (rss.map fun r => r.map fun (x : Nat) => (x : F)))
        (rwTabs rh g 1 (ops.map fun o => o.map fun (x : Nat) => (x : F)) (ops.map fun o => o.map fun a => mem.getD a 0)
          (rss.map fun r => r.map fun (x : Nat) => (x : F)))
        (cellT rh g mem (audit.map fun (x : Nat) => (x : F)))) := by
  have key : ∀ (f : Nat → F) (L : List (List Nat)), L.length = 3 → (∀ o ∈ L, o.length = 2 ^ n) →
      ∀ i < (ops.map fun o => o.map fun (x : Nat) => (x : F)).length,
        ((L.map fun o => o.map f).getD i []).length = 2 ^ n := by
    intro f L hL h i hi
    rw [List.length_map, ho] at hi
    rw [List.getD_eq_getElem _ _ (by rw [List.length_map]; omega), List.getElem_map, List.length_map]
    exact h _ (List.getElem_mem _)
  have := layersNew_eq hm hn rh g ht (addrs := ops.map fun o => o.map fun (x : Nat) => (x : F))
    (vals := ops.map fun o => o.map fun a => mem.getD a 0) (tss := rss.map fun r => r.map fun (x : Nat) => (x : F))
    (audit := audit.map fun (x : Nat) => (x : F)) (key _ ops ho hol) (key _ ops ho hol) (key _ rss hr hrl)
    (by simp) (by simp [ho, hr]) (by simpa using ha) ops
  rw [← this]
  simp only [addrTs, List.map_map]
  rfl

theorem rwTabs_length (rh g s : F) (a v t : List (List F)) : (rwTabs rh g s a v t).length = a.length := by
  simp [rwTabs]

theorem rwTabs_tabs {n : Nat} (rh g s : F) {a : List (List F)} (v t : List (List F))
    (h : ∀ T ∈ a, T.length = 2 ^ n) : ∀ T ∈ rwTabs rh g s a v t, T.length = 2 ^ n := by
  intro T hT
  simp only [rwTabs, List.mem_map, List.mem_range] at hT
  obtain ⟨i, hi, rfl⟩ := hT
  rw [opsT_length, List.getD_eq_getElem _ _ hi]
  exact h _ (List.getElem_mem _)

/-- Product equation of the honest tables. -/
theorem addrTs_products (rh g : F) {m n : Nat} {mem : List F} (hm : mem.length = 2 ^ m)
    {ops rss : List (List Nat)} {audit : List Nat} (ho : ops.length = 3) (hr : rss.length = 3)
    (hol : ∀ o ∈ ops, o.length = 2 ^ n) (hrl : ∀ o ∈ rss, o.length = 2 ^ n)
    (hM : cellsM (2 ^ m) (List.replicate (2 ^ m) 0) + opssM ops (rss.map fun r => r.map (· + 1)) =
      opssM ops rss + cellsM (2 ^ m) audit) :
    (cellT rh g mem (List.replicate (2 ^ m) 0)).prod *
      ((rwTabs rh g 1 (ops.map fun o => o.map fun (x : Nat) => (x : F)) (ops.map fun o => o.map fun a => mem.getD a 0)
        (rss.map fun r => r.map fun (x : Nat) => (x : F))).map List.prod).prod =
    ((rwTabs rh g 0 (ops.map fun o => o.map fun (x : Nat) => (x : F)) (ops.map fun o => o.map fun a => mem.getD a 0)
        (rss.map fun r => r.map fun (x : Nat) => (x : F))).map List.prod).prod *
      (cellT rh g mem (audit.map fun (x : Nat) => (x : F))).prod := by
  rw [← hm]
  apply memory_products rh g (by rw [ho, hr])
  · intro i hi
    rw [List.getD_eq_getElem _ _ (by omega), List.getD_eq_getElem _ _ hi, hrl _ (List.getElem_mem _),
      hol _ (List.getElem_mem _)]
  · rw [hm]; exact hM

/-- Three matrices and their dense representation, as produced by `multi_commit`. -/
structure DenseOf (A B C : SparseMat F) (m n : Nat) (D : MultiDense F) (rss css : List (List Nat))
    (audit caudit : List Nat) : Prop where
  row : D.row = addrTs m n ([A, B, C].map (padRowsOf (2 ^ n))) rss audit
  col : D.col = addrTs m n ([A, B, C].map (padColsOf (2 ^ n))) css caudit
  hrss : rss.length = 3 ∧ (∀ r ∈ rss, r.length = 2 ^ n) ∧ audit.length = 2 ^ m ∧
    cellsM (2 ^ m) (List.replicate (2 ^ m) 0) +
      opssM ([A, B, C].map (padRowsOf (2 ^ n))) (rss.map fun r => r.map (· + 1)) =
    opssM ([A, B, C].map (padRowsOf (2 ^ n))) rss + cellsM (2 ^ m) audit
  hcss : css.length = 3 ∧ (∀ r ∈ css, r.length = 2 ^ n) ∧ caudit.length = 2 ^ m ∧
    cellsM (2 ^ m) (List.replicate (2 ^ m) 0) +
      opssM ([A, B, C].map (padColsOf (2 ^ n))) (css.map fun r => r.map (· + 1)) =
    opssM ([A, B, C].map (padColsOf (2 ^ n))) css + cellsM (2 ^ m) caudit
  tabs : D.Tabs m n ([A, B, C].map fun m => (padRowsOf (2 ^ n) m).map fun (x : Nat) => (x : F))
    (rss.map fun r => r.map fun (x : Nat) => (x : F))
    ([A, B, C].map fun m => (padColsOf (2 ^ n) m).map fun (x : Nat) => (x : F))
    (css.map fun r => r.map fun (x : Nat) => (x : F)) ([A, B, C].map (padValsOf (2 ^ n)))
    (audit.map fun (x : Nat) => (x : F)) (caudit.map fun (x : Nat) => (x : F))

theorem multiCommit_ok (E : Env F G P) {A B C : SparseMat F} {k l n : Nat}
    (hx : A.nx = k ∧ B.nx = k ∧ C.nx = k) (hy : A.ny = l ∧ B.ny = l ∧ C.ny = l)
    (hA : A.InRange (2 ^ k) (2 ^ l)) (hB : B.InRange (2 ^ k) (2 ^ l)) (hC : C.InRange (2 ^ k) (2 ^ l))
    (hn : n = nzVars A B C) {gens : SparseGens G} {a0 a1 a2 a3 a4 a5 : G}
    (hg : gens.WF (max k l) n a0 a1 a2 a3 a4 a5) :
    ∃ comm D rss css audit caudit, multiCommit E [A, B, C] gens = .ok (comm, D) ∧
      DenseOf A B C (max k l) n D rss css audit caudit ∧ comm.Of E D gens (max k l) n := by
  obtain ⟨D, rss, audit, css, caudit, hD, e1, e2, e3, e4, hT⟩ := multiDense_ok hx hy hA hB hC hn
  have lo : (mergeT ([A, B, C].map (fun m => (padRowsOf (2 ^ n) m).map fun (x : Nat) => (x : F)) ++
      rss.map (fun r => r.map fun (x : Nat) => (x : F)) ++
      [A, B, C].map (fun m => (padColsOf (2 ^ n) m).map fun (x : Nat) => (x : F)) ++
      css.map (fun r => r.map fun (x : Nat) => (x : F)) ++ [A, B, C].map (padValsOf (2 ^ n)))).length =
      2 ^ (4 + n) := by
    have c16 : Nat.clog 2 15 = 4 := by decide +kernel
    apply mergeT_length _ hT.tabs
    · have := hT.lens
      simp only [List.length_append, this.1, this.2.1, this.2.2.1, this.2.2.2.1, this.2.2.2.2, nextPow2, c16]
    · simp
  have lm : (audit.map (fun (x : Nat) => (x : F)) ++ caudit.map fun (x : Nat) => (x : F)).length =
      2 ^ (max k l + 1) := by
    rw [List.length_append, hT.ru, hT.cu, pow_succ]; ring
  have co := commit_eq E lo hg.ops none
  have cm := commit_eq E lm hg.mem none
  change Dense.commit E (dn (4 + n) _) _ _ = _ at co
  change Dense.commit E (dn (max k l + 1) _) _ _ = _ at cm
  rw [← hT.ops] at co
  rw [← hT.mem] at cm
  refine ⟨⟨3, 2 ^ n, 2 ^ max k l, _, _⟩, D, rss, css, audit, caudit, ?_, ⟨e1, e2, e3, e4, hT⟩,
    ⟨?_, ?_, ⟨_, _, co⟩, ⟨_, _, cm⟩⟩⟩
  · unfold multiCommit
    rw [hD, ok_bind, co, ok_bind]
    simp only
    rw [cm, ok_bind]
    simp only
    have h0 : idx D.row.readTs 0 = .ok (D.row.readTs.getD 0 (dn n [])) := idx_ok (by
      rw [hT.rowTs, List.length_map, List.length_map, e3.1]; norm_num) _
    obtain ⟨x, y, z, rfl⟩ := List.length_eq_three.1 e3.1
    have hx := e3.2.1 x (by simp)
    rw [h0, ok_bind, hT.rowTs, hT.rowAud]
    simp [dn, hx, e3.2.2.1, pure_ok]
  · rfl
  · rfl

/-- The evaluation proof of three committed matrices. -/
theorem sparse_complete (h2 : (2 : F) ≠ 0) (h3 : (3 : F) ≠ 0) {E : Env F G P} (hE : E.Lawful)
    (hu : ∀ t, E.hash (t ++ [.chal "u"]) ≠ 0) {A B C : SparseMat F} {k l n : Nat}
    (hA : A.InRange (2 ^ k) (2 ^ l)) (hB : B.InRange (2 ^ k) (2 ^ l)) (hC : C.InRange (2 ^ k) (2 ^ l))
    (hn : n = nzVars A B C) (hn1 : 1 ≤ n) (hn58 : n ≤ 58) (hm1 : 1 ≤ max k l) (hm : max k l ≤ 61)
    {gens : SparseGens G} {a0 a1 a2 a3 a4 a5 : G} (hg : gens.WF (max k l) n a0 a1 a2 a3 a4 a5)
    {comm : SparseComm P} {D : MultiDense F} {rss css : List (List Nat)} {audit caudit : List Nat}
    (hD : DenseOf A B C (max k l) n D rss css audit caudit) (hc : comm.Of E D gens (max k l) n)
    {rx ry : List F} (hrx : rx.length = k) (hry : ry.length = l) (tr : Tr F P) (tape : Tape F) :
    ∃ pf tr' tape', sparseProve E D rx ry
        [matMLE A.triples rx ry, matMLE B.triples rx ry, matMLE C.triples rx ry] gens tr tape =
        .ok (pf, tr', tape') ∧
      sparseVerify E pf comm rx ry [matMLE A.triples rx ry, matMLE B.triples rx ry, matMLE C.triples rx ry] gens
        tr = .ok tr' := by
  obtain ⟨x1, x2, x3, x4⟩ := equalize_ok hrx hry
  have hlen : ∀ m ∈ [A, B, C], m.M.length ≤ 2 ^ n := by
    intro m hm
    refine (le_nextPow2 _).trans (Nat.pow_le_pow_right (by norm_num) ?_)
    rw [hn]
    unfold nzVars
    simp only [List.mem_cons, List.not_mem_nil, or_false] at hm
    rcases hm with rfl | rfl | rfl <;> simp
  have hrange : ∀ m ∈ [A, B, C], m.InRange (2 ^ k) (2 ^ l) := by
    intro m hm
    simp only [List.mem_cons, List.not_mem_nil, or_false] at hm
    rcases hm with rfl | rfl | rfl <;> assumption
  have hkm : 2 ^ k ≤ 2 ^ max k l := Nat.pow_le_pow_right (by norm_num) (le_max_left _ _)
  have hlm : 2 ^ l ≤ 2 ^ max k l := Nat.pow_le_pow_right (by norm_num) (le_max_right _ _)
  have hpr : ∀ o ∈ [A, B, C].map (padRowsOf (2 ^ n)), o.length = 2 ^ n := by
    intro o ho
    obtain ⟨m, hm, rfl⟩ := List.mem_map.1 ho
    have := hlen m hm
    simp [padRowsOf]; omega
  have hpc : ∀ o ∈ [A, B, C].map (padColsOf (2 ^ n)), o.length = 2 ^ n := by
    intro o ho
    obtain ⟨m, hm, rfl⟩ := List.mem_map.1 ho
    have := hlen m hm
    simp [padColsOf]; omega
  have hbr : ∀ o ∈ [A, B, C].map (padRowsOf (2 ^ n)), ∀ a ∈ o, a < 2 ^ max k l := by
    intro o ho a ha
    obtain ⟨m, hm, rfl⟩ := List.mem_map.1 ho
    rw [padRowsOf, List.mem_append] at ha
    rcases ha with ha | ha
    · obtain ⟨e, he, rfl⟩ := List.mem_map.1 ha
      exact lt_of_lt_of_le (hrange m hm e he).1 hkm
    · rw [List.eq_of_mem_replicate ha]; positivity
  have hbc : ∀ o ∈ [A, B, C].map (padColsOf (2 ^ n)), ∀ a ∈ o, a < 2 ^ max k l := by
    intro o ho a ha
    obtain ⟨m, hm, rfl⟩ := List.mem_map.1 ho
    rw [padColsOf, List.mem_append] at ha
    rcases ha with ha | ha
    · obtain ⟨e, he, rfl⟩ := List.mem_map.1 ha
      exact lt_of_lt_of_le (hrange m hm e he).2 hlm
    · rw [List.eq_of_mem_replicate ha]; positivity
  -- the looked-up tables
  set rxe := (equalize rx ry).1 with hrxe
  set rye := (equalize rx ry).2 with hrye
  have mX : (eqEvals rxe).length = 2 ^ max k l := by rw [(eqEvals_correct rxe).1, x1]
  have mY : (eqEvals rye).length = 2 ^ max k l := by rw [(eqEvals_correct rye).1, x2]
  set dr := ([A, B, C].map (padRowsOf (2 ^ n))).map fun o => o.map fun a => (eqEvals rxe).getD a 0 with hdr
  set dc := ([A, B, C].map (padColsOf (2 ^ n))).map fun o => o.map fun a => (eqEvals rye).getD a 0 with hdc
  have ldr : dr.length = 3 := rfl
  have ldc : dc.length = 3 := rfl
  have hdT : ∀ T ∈ dr ++ dc, T.length = 2 ^ n := by
    intro T hT
    rw [List.mem_append] at hT
    rcases hT with hT | hT
    · obtain ⟨o, ho, rfl⟩ := List.mem_map.1 hT
      rw [List.length_map]; exact hpr _ ho
    · obtain ⟨o, ho, rfl⟩ := List.mem_map.1 hT
      rw [List.length_map]; exact hpc _ ho
  have np8 : nextPow2 (dr ++ dc).length = 2 ^ 3 := by
    have c8 : Nat.clog 2 6 = 3 := by decide +kernel
    simp [ldr, ldc, nextPow2, c8]
  have nd0 : dr ++ dc ≠ [] := fun h => by have := congrArg List.length h; simp [ldr] at this
  have hds : D.deref (eqEvals rxe) (eqEvals rye) =
      .ok ⟨dr.map (dn n), dc.map (dn n), dn (3 + n) (mergeT (dr ++ dc))⟩ := by
    unfold MultiDense.deref
    rw [hD.row, hD.col, deref_eq mX _ hpr hbr, ok_bind, deref_eq mY _ hpc hbc, ok_bind]
    unfold Derefs.new
    rw [check_true (by simp), ok_bind]
    have : ([A, B, C].map (padRowsOf (2 ^ n))).map (fun o => dn n (o.map fun a => (eqEvals rxe).getD a 0)) ++
        ([A, B, C].map (padColsOf (2 ^ n))).map (fun o => dn n (o.map fun a => (eqEvals rye).getD a 0)) =
        (dr ++ dc).map (dn n) := by
      rw [List.map_append, hdr, hdc, List.map_map, List.map_map, List.map_map, List.map_map, List.map_map,
        List.map_map]
      rfl
    rw [this, merge_dn nd0 hdT np8, ok_bind]
    rfl
  have hvals : dotVals n dr dc ([A, B, C].map (padValsOf (2 ^ n))) =
      [matMLE A.triples rx ry, matMLE B.triples rx ry, matMLE C.triples rx ry] := by
    rw [← triSum_mat hA hrx hry (hlen A (by simp)) x3 x4, ← triSum_mat hB hrx hry (hlen B (by simp)) x3 x4,
      ← triSum_mat hC hrx hry (hlen C (by simp)) x3 x4]
    rfl
  obtain ⟨cD, b, t, hcD⟩ : ∃ cD b t, (dn (3 + n) (mergeT (dr ++ dc))).commit E gens.derefs none =
      .ok (cD, b, t) := ⟨_, _, _, commit_eq E (mergeT_length nd0 hdT np8) hg.derefs none⟩
  set tr1 := (tr.protocol "Sparse polynomial evaluation proof").derefsComm "comm_poly_row_col_ops_val" cD
    with htr1
  set q := E.challengeVec tr1 "challenge_r_hash" 2 with hq
  have o3 : ([A, B, C].map (padRowsOf (2 ^ n))).length = 3 := rfl
  have o3' : ([A, B, C].map (padColsOf (2 ^ n))).length = 3 := rfl
  have eR := addrTs_products (q.1.getD 0 0) (q.1.getD 1 0) mX o3 hD.hrss.1 hpr hD.hrss.2.1 hD.hrss.2.2.2
  have eC := addrTs_products (q.1.getD 0 0) (q.1.getD 1 0) mY o3' hD.hcss.1 hpc hD.hcss.2.1 hD.hcss.2.2.2
  rw [← hdr] at eR
  rw [← hdc] at eC
  have tR : ∀ s, ∀ T ∈ rwTabs (q.1.getD 0 0) (q.1.getD 1 0) s
      (([A, B, C].map (padRowsOf (2 ^ n))).map fun o => o.map fun (x : Nat) => (x : F)) dr
      (rss.map fun r => r.map fun (x : Nat) => (x : F)), T.length = 2 ^ n := fun s =>
    rwTabs_tabs _ _ _ _ _ fun T hT => by
      obtain ⟨o, ho, rfl⟩ := List.mem_map.1 hT
      rw [List.length_map]; exact hpr _ ho
  have tC : ∀ s, ∀ T ∈ rwTabs (q.1.getD 0 0) (q.1.getD 1 0) s
      (([A, B, C].map (padColsOf (2 ^ n))).map fun o => o.map fun (x : Nat) => (x : F)) dc
      (css.map fun r => r.map fun (x : Nat) => (x : F)), T.length = 2 ^ n := fun s =>
    rwTabs_tabs _ _ _ _ _ fun T hT => by
      obtain ⟨o, ho, rfl⟩ := List.mem_map.1 hT
      rw [List.length_map]; exact hpc _ ho
  have lR : ∀ s, (rwTabs (q.1.getD 0 0) (q.1.getD 1 0) s
      (([A, B, C].map (padRowsOf (2 ^ n))).map fun o => o.map fun (x : Nat) => (x : F)) dr
      (rss.map fun r => r.map fun (x : Nat) => (x : F))).length = 3 := fun s => by rw [rwTabs_length]; rfl
  have lC : ∀ s, (rwTabs (q.1.getD 0 0) (q.1.getD 1 0) s
      (([A, B, C].map (padColsOf (2 ^ n))).map fun o => o.map fun (x : Nat) => (x : F)) dc
      (css.map fun r => r.map fun (x : Nat) => (x : F))).length = 3 := fun s => by rw [rwTabs_length]; rfl
  obtain ⟨pp, ph, randOps, tr', tape', hro, hp, b1, b2, b3, b4, hv⟩ := net_generic h2 h3 hE hu hm1 hm hn1 hn58
    hD.tabs hg hc ⟨lR 0, lR 1, lC 0, lC 1, ldr, ldc⟩ hdT (tR 0) (tR 1) (tC 0) (tC 1) hcD x1 x2 (q.1.getD 0 0)
    (q.1.getD 1 0) eR eC q.2 tape
  rw [hvals] at hp hv
  refine ⟨⟨cD, ⟨pp, ph⟩⟩, tr', tape', ?_, ?_⟩
  · unfold sparseProve
    simp only
    rw [check_true (by rw [hD.tabs.batch]; rfl), ok_bind, ← hrxe, ← hrye, hds, ok_bind]
    unfold Derefs.commit
    simp only
    rw [hcD, ok_bind]
    simp only
    rw [pure_ok, ok_bind, ← htr1, ← hq]
    have r1 := addrTs_layers hm1 hn1 (q.1.getD 0 0) (q.1.getD 1 0) mX o3 hD.hrss.1 hpr hD.hrss.2.1 hD.hrss.2.2.1
    have r2 := addrTs_layers hm1 hn1 (q.1.getD 0 0) (q.1.getD 1 0) mY o3' hD.hcss.1 hpc hD.hcss.2.1 hD.hcss.2.2.1
    have er : dr.map (dn n) = ([A, B, C].map (padRowsOf (2 ^ n))).map fun o =>
        dn n (o.map fun a => (eqEvals rxe).getD a 0) := rfl
    have ec : dc.map (dn n) = ([A, B, C].map (padColsOf (2 ^ n))).map fun o =>
        dn n (o.map fun a => (eqEvals rye).getD a 0) := rfl
    rw [hD.row, hD.col, er, ec, r1, ok_bind, r2, ok_bind, ← er, ← ec, hp, ok_bind]
    rfl
  · unfold sparseVerify
    simp only
    rw [← hrxe, ← hrye, x1, check_true hc.numCells.symm, ok_bind, ← htr1, ← hq]
    apply hv ph.row ph.col rfl rfl rfl rfl
    · rw [b1, b2]
      refine hashOpsCheck_honest hro _ _ ⟨rfl, ldr, by rw [List.length_map]; exact hD.hrss.1⟩ ?_ ?_
      · intro T hT
        obtain ⟨o, ho, rfl⟩ := List.mem_map.1 hT
        rw [List.length_map]; exact hpr _ (List.mem_map_of_mem ho)
      · intro T hT
        obtain ⟨o, ho, rfl⟩ := List.mem_map.1 hT
        rw [List.length_map]; exact hD.hrss.2.1 _ ho
    · rw [b3, b4]
      refine hashOpsCheck_honest hro _ _ ⟨rfl, ldc, by rw [List.length_map]; exact hD.hcss.1⟩ ?_ ?_
      · intro T hT
        obtain ⟨o, ho, rfl⟩ := List.mem_map.1 hT
        rw [List.length_map]; exact hpc _ (List.mem_map_of_mem ho)
      · intro T hT
        obtain ⟨o, ho, rfl⟩ := List.mem_map.1 hT
        rw [List.length_map]; exact hD.hcss.2.1 _ ho

end Spartan
