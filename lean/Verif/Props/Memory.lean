import Verif.Lemmas.Memory
import Mathlib.Algebra.Polynomial.Roots
import Mathlib.Data.Fintype.BigOperators
import Mathlib.Algebra.Field.ZMod
import Mathlib.Data.Nat.Prime.Basic
import Mathlib.Algebra.BigOperators.Fin

/-!
Property C44: offline memory checking.

Specification: a memory is a list of values; an access is a triple (address, value, timestamp).
-/

namespace Spartan
open Polynomial
variable {F : Type} [Field F] [DecidableEq F]

/-! ### Specification -/

/-- The accesses with the given addresses, values and timestamps. -/
def readSet (A V T : List F) : Multiset (F × F × F) := (List.zip A (List.zip V T) : List (F × F × F))

/-- The same accesses, written back with the next timestamp. -/
def writeSet (A V T : List F) : Multiset (F × F × F) := (readSet A V T).map fun x => (x.1, x.2.1, x.2.2 + 1)

/-- The cells of the memory, cell `i` with timestamp `ts i`. -/
def cellSet (mem ts : List F) : Multiset (F × F × F) :=
  ((List.range mem.length).map fun (i : Nat) => ((i : F), mem.getD i 0, ts.getD i 0) : List (F × F × F))

/-- The cells of the memory with timestamp zero. -/
def initSet (mem : List F) : Multiset (F × F × F) := cellSet mem []

/-- The product over accesses `(a, v, t)` of `t r² + v r + a - γ`. -/
def hashProd (r γ : F) (S : Multiset (F × F × F)) : F :=
  (S.map fun x => x.2.2 * r ^ 2 + x.2.1 * r + x.1 - γ).prod

/-! ### Honest timestamps -/

/-- The access triple of an address with a timestamp. -/
def tripleOf (mem : List F) (p : Nat × Nat) : F × F × F := ((p.1 : F), mem.getD p.1 0, (p.2 : F))

theorem cellsM_triples (mem : List F) (audit : List Nat) (n : Nat) :
    (cellsM n audit).map (tripleOf mem) = (((List.range n).map fun (i : Nat) =>
      ((i : F), mem.getD i 0, (audit.map fun (x : Nat) => (x : F)).getD i 0) : List (F × F × F)) :
        Multiset (F × F × F)) := by
  induction n with
  | zero => simp [cellsM]
  | succ n ih =>
    have : cellsM (n + 1) audit = cellsM n audit + {(n, audit.getD n 0)} := by
      unfold cellsM; rw [Finset.sum_range_succ]
    have e : ((audit.getD n 0 : Nat) : F) = (audit.map fun (x : Nat) => (x : F)).getD n 0 := by
      by_cases h : n < audit.length <;> simp [List.getD_eq_getElem?_getD, h]
    rw [this, Multiset.map_add, ih, List.range_succ, List.map_append, ← Multiset.coe_add]
    simp only [Multiset.map_singleton, tripleOf, e, List.map_cons, List.map_nil, Multiset.coe_singleton]

theorem opsM_triples (mem : List F) : ∀ {o r : List Nat}, r.length = o.length →
    (opsM o r).map (tripleOf mem) = readSet (o.map fun (x : Nat) => (x : F)) (o.map fun a => mem.getD a 0)
      (r.map fun (x : Nat) => (x : F))
  | [], r, _ => by simp [opsM, readSet]
  | a :: o, [], h => by simp at h
  | a :: o, t :: r, h => by
    have ih := opsM_triples mem (o := o) (r := r) (by simpa using h)
    unfold opsM readSet at ih ⊢
    simp only [List.map_cons, List.zip_cons_cons, Multiset.map_coe] at ih ⊢
    rw [← Multiset.cons_coe, ih, ← Multiset.cons_coe]
    rfl

theorem readSet_append {A V T A' V' T' : List F} (h1 : A.length = V.length) (h2 : A.length = T.length) :
    readSet (A ++ A') (V ++ V') (T ++ T') = readSet A V T + readSet A' V' T' := by
  unfold readSet
  rw [List.zip_append (by omega), List.zip_append (by simp; omega), Multiset.coe_add]

theorem opssM_triples (mem : List F) : ∀ {ops rss : List (List Nat)}, rss.length = ops.length →
    (∀ i < ops.length, (rss.getD i []).length = (ops.getD i []).length) →
    (opssM ops rss).map (tripleOf mem) =
      readSet (ops.flatten.map fun (x : Nat) => (x : F)) (ops.flatten.map fun a => mem.getD a 0)
        (rss.flatten.map fun (x : Nat) => (x : F))
  | [], rss, _, _ => by simp [opssM, readSet]
  | o :: ops, [], h, _ => by simp at h
  | o :: ops, r :: rss, h, hi => by
    have ih := opssM_triples mem (ops := ops) (rss := rss) (by simpa using h)
      (fun i h' => by simpa using hi (i + 1) (by simpa using h'))
    have : opssM (o :: ops) (r :: rss) = opsM o r + opssM ops rss := by simp [opssM]
    have hl : r.length = o.length := by simpa using hi 0 (by simp)
    rw [this, Multiset.map_add, ih, opsM_triples mem hl, List.flatten_cons, List.flatten_cons,
      List.map_append, List.map_append, List.map_append, readSet_append (by simp) (by simp [hl])]

theorem flatten_map_Z {n : Nat} (L : List (List F)) : ((L.map (dn n)).map (·.Z)).flatten = L.flatten := by
  congr 1
  rw [List.map_map]
  conv_rhs => rw [← List.map_id L]
  rfl

theorem initSet_eq (mem : List F) (n : Nat) : initSet mem = cellSet mem (List.replicate n 0) := by
  unfold initSet cellSet
  congr 2
  funext i
  by_cases h : i < n <;> simp [List.getD_eq_getElem?_getD, h]

/-- C44, first half.  For any lists of accesses inside a memory of `2^m ≥ 2` cells (each list of
length `2^n ≥ 2`): the timestamps are computed without panic; with the values read from `mem`,
initial cells plus writes and reads plus final cells are the same multiset; and for every hash
challenge `(r, γ)` the products checked by the prover and the verifier agree. -/
theorem memory_check_complete {m n : Nat} (hm : 1 ≤ m) (hn : 1 ≤ n) {ops : List (List Nat)}
    (hl : ∀ o ∈ ops, o.length = 2 ^ n) (hb : ∀ o ∈ ops, ∀ a ∈ o, a < 2 ^ m) {mem : List F}
    (hmem : mem.length = 2 ^ m) :
    ∃ (t : AddrTs F) (ds : List (Dense F)), AddrTs.new (2 ^ m) (2 ^ n) ops = .ok t ∧
      t.deref mem = .ok ds ∧
      (t.addr.map (·.Z)).flatten = ops.flatten.map (fun (a : Nat) => (a : F)) ∧
      (ds.map (·.Z)).flatten = ops.flatten.map (fun a => mem.getD a 0) ∧
      initSet mem + writeSet (t.addr.map (·.Z)).flatten (ds.map (·.Z)).flatten (t.readTs.map (·.Z)).flatten =
        readSet (t.addr.map (·.Z)).flatten (ds.map (·.Z)).flatten (t.readTs.map (·.Z)).flatten +
          cellSet mem t.auditTs.Z ∧
      ∀ r γ, ∃ L e, layersNew r γ mem t ds = .ok L ∧ L.evals = .ok e ∧
        e.init * e.write.prod = e.read.prod * e.audit ∧
        e.init = hashProd r γ (initSet mem) ∧
        e.audit = hashProd r γ (cellSet mem t.auditTs.Z) := by
  obtain ⟨rss, audit, h1, h2, h3, h4, h5⟩ := addrTs_new (F := F) hl hb
  have hi : ∀ i < ops.length, (rss.getD i []).length = (ops.getD i []).length := by
    intro i hi
    rw [List.getD_eq_getElem _ _ (by omega), List.getD_eq_getElem _ _ hi, h3 _ (List.getElem_mem _),
      hl _ (List.getElem_mem _)]
  have eA : ((addrTs (F := F) m n ops rss audit).addr.map (·.Z)).flatten =
      ops.flatten.map fun (x : Nat) => (x : F) := by
    have : (addrTs (F := F) m n ops rss audit).addr =
        (ops.map fun Z => Z.map fun (x : Nat) => (x : F)).map (dn n) := by
      simp only [addrTs, List.map_map]; rfl
    rw [this, flatten_map_Z, List.map_flatten]
  have eT : ((addrTs (F := F) m n ops rss audit).readTs.map (·.Z)).flatten =
      rss.flatten.map fun (x : Nat) => (x : F) := by
    have : (addrTs (F := F) m n ops rss audit).readTs =
        (rss.map fun Z => Z.map fun (x : Nat) => (x : F)).map (dn n) := by
      simp only [addrTs, List.map_map]; rfl
    rw [this, flatten_map_Z, List.map_flatten]
  have eV : ((ops.map fun o => dn n (o.map fun a => mem.getD a 0)).map (·.Z)).flatten =
      ops.flatten.map fun a => mem.getD a 0 := by
    have : (ops.map fun o => dn n (o.map fun a => mem.getD a 0)) =
        (ops.map fun o => o.map fun a => mem.getD a 0).map (dn n) := by rw [List.map_map]; rfl
    rw [this, flatten_map_Z, List.map_flatten]
  have eC : cellSet mem (audit.map fun (x : Nat) => (x : F)) = (cellsM (2 ^ m) audit).map (tripleOf mem) := by
    rw [cellsM_triples, ← hmem]; rfl
  have eI : initSet mem = (cellsM (2 ^ m) (List.replicate (2 ^ m) 0)).map (tripleOf mem) := by
    rw [cellsM_triples, ← hmem, initSet_eq mem mem.length]
    unfold cellSet
    simp
  refine ⟨_, _, h1, deref_eq hmem ops hl hb, eA, eV, ?_, ?_⟩
  · rw [eA, eT, eV]
    have hM := congrArg (Multiset.map (tripleOf mem)) h5
    rw [Multiset.map_add, Multiset.map_add, opssM_triples mem h2 hi,
      opssM_triples mem (by simpa using h2) (by
        intro i hi'
        rw [getD_map_nil, List.length_map]; exact hi i hi'), ← eI, ← eC] at hM
    have ew : readSet (ops.flatten.map fun (x : Nat) => (x : F)) (ops.flatten.map fun a => mem.getD a 0)
        ((rss.map fun r => r.map (· + 1)).flatten.map fun (x : Nat) => (x : F)) =
        writeSet (ops.flatten.map fun (x : Nat) => (x : F)) (ops.flatten.map fun a => mem.getD a 0)
          (rss.flatten.map fun (x : Nat) => (x : F)) := by
      unfold writeSet readSet
      rw [Multiset.map_coe]
      congr 1
      have : ((rss.map fun r => r.map (· + 1)).flatten.map fun (x : Nat) => (x : F)) =
          (rss.flatten.map fun (x : Nat) => (x : F)).map (· + 1) := by
        rw [← List.map_flatten, List.map_map, List.map_map]
        apply List.map_congr_left
        intro x _
        simp
      rw [this]
      generalize (ops.flatten.map fun (x : Nat) => (x : F)) = A
      generalize (ops.flatten.map fun a => mem.getD a 0) = V
      generalize (rss.flatten.map fun (x : Nat) => (x : F)) = T
      induction A generalizing V T with
      | nil => rfl
      | cons a A ih =>
        cases V with
        | nil => rfl
        | cons v V =>
          cases T with
          | nil => rfl
          | cons t T => simp only [List.map_cons, List.zip_cons_cons, ih]
    rw [ew] at hM
    exact hM
  · intro r γ
    have gd : ∀ (i : Nat), i < ops.length → (ops.getD i []).length = 2 ^ n := by
      intro i hi'
      rw [List.getD_eq_getElem _ _ hi', hl _ (List.getElem_mem _)]
    have hL := layersNew_eq hm hn r γ hmem (addrs := ops.map fun Z => Z.map fun (x : Nat) => (x : F))
      (vals := ops.map fun o => o.map fun a => mem.getD a 0)
      (tss := rss.map fun Z => Z.map fun (x : Nat) => (x : F))
      (audit := audit.map fun (x : Nat) => (x : F))
      (by intro i hi'; rw [getD_map_nil, List.length_map]; exact gd i (by simpa using hi'))
      (by intro i hi'; rw [getD_map_nil, List.length_map]; exact gd i (by simpa using hi'))
      (by
        intro i hi'
        rw [getD_map_nil, List.length_map, hi i (by simpa using hi')]; exact gd i (by simpa using hi'))
      (by simp) (by simpa using h2) (by simpa using h4) ops
    have hP := memory_products r γ (mem := mem) h2 hi (audit := audit) (by rw [hmem]; exact h5)
    have hlen : ∀ s : F, ∀ T ∈ rwTabs r γ s (ops.map fun Z => Z.map fun (x : Nat) => (x : F))
        (ops.map fun o => o.map fun a => mem.getD a 0) (rss.map fun Z => Z.map fun (x : Nat) => (x : F)),
        T.length = 2 ^ n := by
      intro s T hT'
      obtain ⟨i, hi', rfl⟩ := List.mem_map.1 hT'
      rw [opsT_length, getD_map_nil, List.length_map]
      exact gd i (by simpa using hi')
    rw [hmem] at hP
    refine ⟨_, _, ?_, layerOf_evals hm hn (by rw [cellT_length, hmem]) (by rw [cellT_length, hmem])
      (hlen 0) (hlen 1) hP, hP, ?_, ?_⟩
    · rw [← hL]
      congr 1
      · simp only [addrTs, List.map_map]; rfl
      · rw [List.map_map]; rfl
    · rw [initSet_eq mem (2 ^ m)]
      unfold hashProd cellSet cellT
      rw [Multiset.map_coe, Multiset.prod_coe, List.map_map]
      dsimp only
      congr 2
      funext i
      simp only [Function.comp, memHash]; ring
    · unfold hashProd cellSet cellT
      rw [Multiset.map_coe, Multiset.prod_coe, List.map_map]
      dsimp only
      congr 2
      funext i
      simp only [Function.comp, memHash, addrTs, dn]; ring

/-- An address outside the memory is refused (panic). -/
theorem timestamps_out_of_range {cells n : Nat} {ops : List (List Nat)}
    (hb : ¬ ∀ o ∈ ops, ∀ a ∈ o, a < cells) : AddrTs.new (F := F) cells n ops = .error .panic := by
  unfold AddrTs.new
  by_cases hl : ∀ o ∈ ops, o.length = n
  · rw [check_true hl, ok_bind]
    have : ∀ (ops : List (List Nat)) (audit : List Nat), audit.length = cells →
        (¬ ∀ o ∈ ops, ∀ a ∈ o, a < cells) → tsLoops cells ops audit = .error .panic := by
      intro ops
      induction ops with
      | nil => intro _ _ h; exact absurd (by simp) h
      | cons o ops ih =>
        intro audit ha h
        unfold tsLoops
        by_cases ho : ∀ a ∈ o, a < cells
        · obtain ⟨rs, audit', h1, -, h3, -⟩ := tsLoop_ok cells o audit ha ho
          rw [h1, ok_bind]
          simp only
          rw [ih audit' h3 (fun h' => h fun x hx => ?_)]
          · rfl
          · rcases List.mem_cons.1 hx with rfl | hx
            · exact ho
            · exact h' x hx
        · rw [tsLoop_panic cells o audit ha ho]; rfl
    rw [this ops _ (by simp) hb]; rfl
  · rw [check_false hl]; rfl

/-! ### Soundness of the multiset equation -/

theorem mem_cellSet {mem ts : List F} {x : F × F × F} (h : x ∈ cellSet mem ts) :
    ∃ c < mem.length, x.1 = (c : F) ∧ x.2.1 = mem.getD c 0 := by
  unfold cellSet at h
  rw [Multiset.mem_coe, List.mem_map] at h
  obtain ⟨c, hc, rfl⟩ := h
  exact ⟨c, List.mem_range.1 hc, rfl, rfl⟩

/-- C44, second half.  If initial cells plus writes equal reads plus final cells for claimed
addresses, values and timestamps (any field elements), and the number of accesses is smaller than
the characteristic, then every access reads an existing cell and its claimed value is the content
of that cell. -/
theorem memory_check_sound {mem A V T ts : List F}
    (hchar : ∀ k : Nat, 0 < k → k ≤ A.length → (k : F) ≠ 0)
    (h : initSet mem + writeSet A V T = readSet A V T + cellSet mem ts) :
    ∀ x ∈ readSet A V T, ∃ c < mem.length, x.1 = (c : F) ∧ x.2.1 = mem.getD c 0 := by
  intro x hx
  by_contra hno
  -- restrict to accesses with the address and value of `x`, and add up the timestamps
  have hcell : ∀ ts', (cellSet mem ts').filter (fun y => y.1 = x.1 ∧ y.2.1 = x.2.1) = 0 := by
    intro ts'
    rw [Multiset.filter_eq_nil]
    rintro y hy ⟨e1, e2⟩
    obtain ⟨c, hc, h1, h2⟩ := mem_cellSet hy
    exact hno ⟨c, hc, e1 ▸ h1, e2 ▸ h2⟩
  have h' := congrArg (fun M => ((Multiset.filter (fun y : F × F × F => y.1 = x.1 ∧ y.2.1 = x.2.1) M).map
    fun y => y.2.2).sum) h
  simp only [Multiset.filter_add, Multiset.map_add, Multiset.sum_add, initSet, hcell, Multiset.map_zero,
    Multiset.sum_zero, zero_add, add_zero, writeSet, Multiset.filter_map, Multiset.map_map] at h'
  have e : (fun y : F × F × F => y.1 = x.1 ∧ y.2.1 = x.2.1) ∘ (fun z : F × F × F => (z.1, z.2.1, z.2.2 + 1)) =
      fun y : F × F × F => y.1 = x.1 ∧ y.2.1 = x.2.1 := rfl
  have h'' : ((Multiset.filter (fun y : F × F × F => y.1 = x.1 ∧ y.2.1 = x.2.1) (readSet A V T)).map
      fun y => y.2.2 + 1).sum = ((Multiset.filter (fun y : F × F × F => y.1 = x.1 ∧ y.2.1 = x.2.1)
        (readSet A V T)).map fun y => y.2.2).sum := h'
  rw [Multiset.sum_map_add, Multiset.map_const', Multiset.sum_replicate, nsmul_one] at h''
  have hz := add_eq_left.1 h''
  have hmem : x ∈ Multiset.filter (fun y : F × F × F => y.1 = x.1 ∧ y.2.1 = x.2.1) (readSet A V T) :=
    Multiset.mem_filter.2 ⟨hx, rfl, rfl⟩
  refine hchar _ (Multiset.card_pos_iff_exists_mem.2 ⟨x, hmem⟩) ?_ hz
  refine (Multiset.card_le_card (Multiset.filter_le _ _)).trans ?_
  unfold readSet
  simp

/-! ### Soundness of the product check -/

/-- The hash of a triple as a polynomial in the hash challenge. -/
noncomputable def hashPoly (x : F × F × F) : F[X] := C x.2.2 * X ^ 2 + C x.2.1 * X + C x.1

theorem hashPoly_inj : Function.Injective (hashPoly : F × F × F → F[X]) := by
  rintro ⟨a, v, t⟩ ⟨a', v', t'⟩ h
  have h0 := congrArg (fun p => coeff p 0) h
  have h1 := congrArg (fun p => coeff p 1) h
  have h2 := congrArg (fun p => coeff p 2) h
  simp [hashPoly, coeff_X, coeff_C] at h0 h1 h2
  rw [h0, h1, h2]

theorem hashPoly_natDegree (x : F × F × F) : (hashPoly x).natDegree ≤ 2 := by
  unfold hashPoly; compute_degree

theorem coeff_prod_natDegree (S : Multiset F[X]) (hS : ∀ p ∈ S, p.natDegree ≤ 2) : ∀ k,
    (((S.map fun p => (X - C p : F[X][X])).prod).coeff k).natDegree ≤ 2 * S.card := by
  induction S using Multiset.induction_on with
  | empty =>
    intro k
    simp only [Multiset.map_zero, Multiset.prod_zero, coeff_one]
    split <;> simp
  | cons p S ih =>
    have ih := ih fun q hq => hS q (Multiset.mem_cons_of_mem hq)
    have hp := hS p (Multiset.mem_cons_self p S)
    intro k
    rw [Multiset.map_cons, Multiset.prod_cons, Multiset.card_cons, sub_mul, coeff_sub, coeff_C_mul]
    refine (natDegree_sub_le _ _).trans (max_le ?_ ?_)
    · cases k with
      | zero => simp
      | succ k => rw [coeff_X_mul]; exact (ih k).trans (by omega)
    · exact natDegree_mul_le.trans (by have := ih k; omega)

open Classical in
/-- C44, product check: two different multisets of `N` accesses each have the same hash product for
at most `3 N |F|` of the `|F|²` challenges. -/
theorem hashProd_count [Fintype F] {S S' : Multiset (F × F × F)} {N : Nat} (h1 : S.card = N)
    (h2 : S'.card = N) (hne : S ≠ S') :
    (Finset.univ.filter fun p : F × F => hashProd p.1 p.2 S = hashProd p.1 p.2 S').card
      ≤ 3 * N * Fintype.card F := by
  set P : Multiset (F × F × F) → F[X][X] := fun S => ((S.map hashPoly).map fun p => X - C p).prod with hP
  have hPne : P S ≠ P S' := by
    intro h
    have := congrArg roots h
    rw [hP] at this
    simp only [roots_multiset_prod_X_sub_C] at this
    exact hne (Multiset.map_injective hashPoly_inj this)
  obtain ⟨k, hk⟩ : ∃ k, (P S - P S').coeff k ≠ 0 := by
    by_contra h
    push Not at h
    exact hPne (sub_eq_zero.1 (Polynomial.ext fun k => by rw [h k, coeff_zero]))
  set q := (P S - P S').coeff k with hq
  have hdeg : q.natDegree ≤ 2 * N := by
    rw [hq, coeff_sub]
    refine (natDegree_sub_le _ _).trans (max_le ?_ ?_)
    · have := coeff_prod_natDegree (S.map hashPoly) (by
        intro p hp; obtain ⟨x, -, rfl⟩ := Multiset.mem_map.1 hp; exact hashPoly_natDegree x) k
      rwa [Multiset.card_map, h1] at this
    · have := coeff_prod_natDegree (S'.map hashPoly) (by
        intro p hp; obtain ⟨x, -, rfl⟩ := Multiset.mem_map.1 hp; exact hashPoly_natDegree x) k
      rwa [Multiset.card_map, h2] at this
  -- evaluation of the products
  have hmapP : ∀ (S : Multiset (F × F × F)) (r : F), (P S).map (evalRingHom r) =
      (S.map fun x => X - C (x.2.2 * r ^ 2 + x.2.1 * r + x.1)).prod := by
    intro S r
    rw [hP]
    simp only
    rw [Polynomial.map_multiset_prod, Multiset.map_map, Multiset.map_map]
    congr 1
    apply Multiset.map_congr rfl
    intro x _
    simp [hashPoly]
  have heval : ∀ (S : Multiset (F × F × F)) (r γ : F), hashProd r γ S =
      (-1) ^ S.card * ((P S).map (evalRingHom r)).eval γ := by
    intro S r γ
    rw [hmapP]
    induction S using Multiset.induction_on with
    | empty => simp [hashProd]
    | cons x S ih =>
      unfold hashProd at ih ⊢
      rw [Multiset.map_cons, Multiset.prod_cons, Multiset.map_cons, Multiset.prod_cons, ih,
        Multiset.card_cons, eval_mul, pow_succ]
      simp
      ring
  have hsum : (Finset.univ.filter fun p : F × F => hashProd p.1 p.2 S = hashProd p.1 p.2 S').card
      = ∑ r : F, (Finset.univ.filter fun γ : F => hashProd r γ S = hashProd r γ S').card := by
    rw [← Finset.card_sigma]
    symm
    apply Finset.card_bij (fun (a : (_ : F) × F) _ => (a.1, a.2))
    · rintro ⟨r, γ⟩ h; simpa using h
    · rintro ⟨r, γ⟩ _ ⟨r', γ'⟩ _ h; simp only [Prod.mk.injEq] at h; rw [h.1, h.2]
    · rintro ⟨r, γ⟩ h
      exact ⟨⟨r, γ⟩, by simpa using h, rfl⟩
  rw [hsum]
  have hdN : ∀ (S : Multiset (F × F × F)) (r : F), S.card = N →
      ((P S).map (evalRingHom r)).natDegree ≤ N := by
    intro S r hc
    rw [hmapP]
    refine (natDegree_multiset_prod_le _).trans ?_
    rw [Multiset.map_map]
    have : (S.map (natDegree ∘ fun x : F × F × F => X - C (x.2.2 * r ^ 2 + x.2.1 * r + x.1))) =
        S.map fun _ => 1 := by
      apply Multiset.map_congr rfl
      intro x _
      simp only [Function.comp, natDegree_X_sub_C]
    rw [this]
    simp [hc]
  have hone : ∀ r : F, (Finset.univ.filter fun γ : F => hashProd r γ S = hashProd r γ S').card
      ≤ (if q.eval r = 0 then Fintype.card F else 0) + N := by
    intro r
    by_cases hr : q.eval r = 0
    · rw [if_pos hr]
      exact (Finset.card_le_univ _).trans (Nat.le_add_right _ _)
    · rw [if_neg hr, zero_add]
      have hD : ((P S - P S').map (evalRingHom r)) ≠ 0 := by
        intro h
        apply hr
        have := congrArg (fun p => coeff p k) h
        simpa [coeff_map, hq] using this
      have hsub : (Finset.univ.filter fun γ : F => hashProd r γ S = hashProd r γ S') ⊆
          ((P S - P S').map (evalRingHom r)).roots.toFinset := by
        intro γ hγ
        rw [Finset.mem_filter] at hγ
        rw [Multiset.mem_toFinset, mem_roots hD, IsRoot.def]
        have := hγ.2
        rw [heval, heval, h1, h2] at this
        have hne1 : ((-1 : F)) ^ N ≠ 0 := pow_ne_zero _ (neg_ne_zero.2 one_ne_zero)
        rw [Polynomial.map_sub, eval_sub, sub_eq_zero]
        exact mul_left_cancel₀ hne1 this
      refine (Finset.card_le_card hsub).trans ((Multiset.toFinset_card_le _).trans ?_)
      refine (card_roots' _).trans ?_
      rw [Polynomial.map_sub]
      exact (natDegree_sub_le _ _).trans (max_le (hdN S r h1) (hdN S' r h2))
  have hqz : q ≠ 0 := hk
  have hroots : (Finset.univ.filter fun r : F => q.eval r = 0).card ≤ 2 * N := by
    have hsub : (Finset.univ.filter fun r : F => q.eval r = 0) ⊆ q.roots.toFinset := by
      intro r hr
      rw [Finset.mem_filter] at hr
      rw [Multiset.mem_toFinset, mem_roots hqz]
      exact hr.2
    exact (Finset.card_le_card hsub).trans ((Multiset.toFinset_card_le _).trans
      ((card_roots' q).trans hdeg))
  calc ∑ r : F, (Finset.univ.filter fun γ : F => hashProd r γ S = hashProd r γ S').card
      ≤ ∑ r : F, ((if q.eval r = 0 then Fintype.card F else 0) + N) :=
        Finset.sum_le_sum fun r _ => hone r
    _ = (Finset.univ.filter fun r : F => q.eval r = 0).card * Fintype.card F + Fintype.card F * N := by
        rw [Finset.sum_add_distrib, ← Finset.sum_filter, Finset.sum_const, Finset.sum_const,
          smul_eq_mul, smul_eq_mul, Finset.card_univ]
    _ ≤ 2 * N * Fintype.card F + Fintype.card F * N := Nat.add_le_add_right (Nat.mul_le_mul_right _ hroots) _
    _ = 3 * N * Fintype.card F := by ring

open Classical in
/-- C44, combined: if some claimed access does not read the content of an existing cell, at most
`3 (|mem| + #accesses) |F|` of the `|F|²` hash challenges pass the product check. -/
theorem memory_check_count [Fintype F] {mem A V T ts : List F} (hV : V.length = A.length)
    (hT : T.length = A.length) (hchar : ∀ k : Nat, 0 < k → k ≤ A.length → (k : F) ≠ 0)
    {x : F × F × F} (hx : x ∈ readSet A V T)
    (hbad : ¬ ∃ c < mem.length, x.1 = (c : F) ∧ x.2.1 = mem.getD c 0) :
    (Finset.univ.filter fun p : F × F =>
      hashProd p.1 p.2 (initSet mem) * hashProd p.1 p.2 (writeSet A V T) =
        hashProd p.1 p.2 (readSet A V T) * hashProd p.1 p.2 (cellSet mem ts)).card
      ≤ 3 * (mem.length + A.length) * Fintype.card F := by
  have hne : initSet mem + writeSet A V T ≠ readSet A V T + cellSet mem ts :=
    fun h => hbad (memory_check_sound hchar h x hx)
  have hc : ∀ ts', (cellSet mem ts').card = mem.length := by intro ts'; simp [cellSet]
  have hr : (readSet A V T).card = A.length := by simp [readSet, hV, hT]
  have := hashProd_count (S := initSet mem + writeSet A V T) (S' := readSet A V T + cellSet mem ts)
    (N := mem.length + A.length) (by rw [Multiset.card_add, initSet, hc, writeSet, Multiset.card_map, hr])
    (by rw [Multiset.card_add, hc, hr, add_comm]) hne
  refine le_trans (le_of_eq ?_) this
  congr 1
  apply Finset.filter_congr
  intro p _
  unfold hashProd
  rw [Multiset.map_add, Multiset.prod_add, Multiset.map_add, Multiset.prod_add]

/-! ### Concrete cases -/

private instance : Fact (Nat.Prime 7) := ⟨Nat.prime_seven⟩
private instance : Fact (Nat.Prime 2) := ⟨Nat.prime_two⟩

/-- Two access lists with repeated addresses in a memory of four cells. -/
example (r γ : ZMod 7) : ∃ (t : AddrTs (ZMod 7)) (ds : List (Dense (ZMod 7))) (L : ProdLayer (ZMod 7))
    (e : MemEvals (ZMod 7)), AddrTs.new 4 2 [[1, 1], [3, 1]] = .ok t ∧ t.deref [5, 6, 0, 2] = .ok ds ∧
      layersNew r γ [5, 6, 0, 2] t ds = .ok L ∧ L.evals = .ok e ∧
      e.init * e.write.prod = e.read.prod * e.audit := by
  obtain ⟨t, ds, h1, h2, -, -, -, h⟩ := memory_check_complete (F := ZMod 7) (m := 2) (n := 1)
    (by norm_num) (by norm_num) (ops := [[1, 1], [3, 1]]) (by decide) (by decide)
    (mem := [5, 6, 0, 2]) rfl
  obtain ⟨L, e, h3, h4, h5, -⟩ := h r γ
  exact ⟨t, ds, L, e, h1, h2, h3, h4, h5⟩

/-- The hypotheses of the converse are met: one read of cell 1 in a memory of two cells. -/
example : initSet [5, 6] + writeSet [1] [6] [0] = readSet [1] [6] [0] + cellSet [5, 6] ([0, 1] : List (ZMod 7)) := by
  decide +kernel

/-- A wrong value violates the equation. -/
example : initSet [5, 6] + writeSet [1] [5] [0] ≠ readSet [1] [5] [0] + cellSet [5, 6] ([0, 1] : List (ZMod 7)) := by
  decide +kernel

/-- The bound on the number of accesses is needed: in characteristic 2 two reads of a wrong value
that exchange their timestamps satisfy the equation. -/
example : initSet [0, 0] + writeSet [1, 1] [1, 1] [0, 1] =
    readSet [1, 1] [1, 1] [0, 1] + cellSet [0, 0] ([0, 0] : List (ZMod 2)) := by decide +kernel

example : AddrTs.new (F := ZMod 7) 4 2 [[1, 4]] = .error .panic :=
  timestamps_out_of_range (by decide)

end Spartan
