import Verif.Lemmas.ZKSumcheck
import Verif.Spec.Sumcheck

/-!
C28 (completeness of the plain sum-check provers) and C30 (completeness of the
zero-knowledge sum-check).  Soundness (C29) is in `Verif/Props/SumcheckSound.lean`.
-/

set_option linter.unusedSectionVars false
namespace Spartan
open Spec
variable {F G P : Type} [Field F] [AddCommGroup G] [Module F G]
  [DecidableEq F] [DecidableEq P] [DecidableEq G]

/-- Value of a polynomial given by coefficients indexed by `Fin`. -/
theorem isPolyDeg_iff {d : Nat} {g : F → F} :
    IsPolyDeg d g ↔ ∃ cs : List F, cs.length = d + 1 ∧ ∀ x, g x = polyEval cs x := by
  constructor
  · rintro ⟨c, hc⟩
    refine ⟨List.ofFn c, by simp, fun x => ?_⟩
    rw [hc, polyEval, List.length_ofFn, Finset.sum_range]
    apply Finset.sum_congr rfl; intro i _
    rw [List.getD_eq_getElem?_getD, List.getElem?_ofFn, dif_pos i.2]
    simp
  · rintro ⟨cs, hl, hc⟩
    refine ⟨fun i => cs.getD i 0, fun x => ?_⟩
    rw [hc, polyEval, hl, Finset.sum_range]

/-- Along every line a three-argument combination is a polynomial of degree at most 3. -/
def Cubic3 (comb : F → F → F → F) : Prop :=
  ∀ a a' b b' c c', IsPolyDeg 3 fun x =>
    comb (a + x * (a' - a)) (b + x * (b' - b)) (c + x * (c' - c))

/-- Along every line a four-argument combination is a polynomial of degree at most 3. -/
def Cubic4 (comb : F → F → F → F → F) : Prop :=
  ∀ a a' b b' c c' d d', IsPolyDeg 3 fun x =>
    comb (a + x * (a' - a)) (b + x * (b' - b)) (c + x * (c' - c)) (d + x * (d' - d))

/-- Along every line a two-argument combination is a polynomial of degree at most 2. -/
def Quad2 (comb : F → F → F) : Prop :=
  ∀ a a' b b', IsPolyDeg 2 fun x => comb (a + x * (a' - a)) (b + x * (b' - b))

/-- The combination of the product circuits (product_tree.rs:181-184). -/
theorem cubic3_product : Cubic3 (fun a b c : F => a * b * c) := by
  intro a a' b b' c c'
  rw [isPolyDeg_iff]
  refine ⟨[a * b * c, a * b * (c' - c) + a * (b' - b) * c + (a' - a) * b * c,
    a * (b' - b) * (c' - c) + (a' - a) * b * (c' - c) + (a' - a) * (b' - b) * c,
    (a' - a) * (b' - b) * (c' - c)], rfl, fun x => ?_⟩
  simp only [polyEval_cons, polyEval_nil]; ring

/-- The combination of the first R1CS sum-check (r1csproof.rs:96-99). -/
theorem cubic4_r1cs : Cubic4 (fun a b c d : F => a * (b * c - d)) := by
  intro a a' b b' c c' d d'
  rw [isPolyDeg_iff]
  refine ⟨[a * (b * c - d), a * (b * (c' - c) + (b' - b) * c - (d' - d)) + (a' - a) * (b * c - d),
    a * ((b' - b) * (c' - c)) + (a' - a) * (b * (c' - c) + (b' - b) * c - (d' - d)),
    (a' - a) * ((b' - b) * (c' - c))], rfl, fun x => ?_⟩
  simp only [polyEval_cons, polyEval_nil]; ring

/-- The combination of the second R1CS sum-check (r1csproof.rs:128). -/
theorem quad2_product : Quad2 (fun a b : F => a * b) := by
  intro a a' b b'
  rw [isPolyDeg_iff]
  refine ⟨[a * b, a * (b' - b) + (a' - a) * b, (a' - a) * (b' - b)], rfl, fun x => ?_⟩
  simp only [polyEval_cons, polyEval_nil]; ring

theorem combDeg3 {comb : F → F → F → F} (h : Cubic3 comb) :
    CombDeg 3 3 (fun l : List F => comb (l.getD 0 0) (l.getD 1 0) (l.getD 2 0)) := by
  intro lo hi h1 h2
  match lo, hi, h1, h2 with
  | [a, b, c], [a', b', c'], _, _ =>
    obtain ⟨cs, hl, hc⟩ := isPolyDeg_iff.1 (h a a' b b' c c')
    exact ⟨cs, hl, fun x => by simpa using hc x⟩

theorem combDeg4 {comb : F → F → F → F → F} (h : Cubic4 comb) :
    CombDeg 3 4 (fun l : List F => comb (l.getD 0 0) (l.getD 1 0) (l.getD 2 0) (l.getD 3 0)) := by
  intro lo hi h1 h2
  match lo, hi, h1, h2 with
  | [a, b, c, d], [a', b', c', d'], _, _ =>
    obtain ⟨cs, hl, hc⟩ := isPolyDeg_iff.1 (h a a' b b' c c' d d')
    exact ⟨cs, hl, fun x => by simpa using hc x⟩

theorem combDeg2 {comb : F → F → F} (h : Quad2 comb) :
    CombDeg 2 2 (fun l : List F => comb (l.getD 0 0) (l.getD 1 0)) := by
  intro lo hi h1 h2
  match lo, hi, h1, h2 with
  | [a, b], [a', b'], _, _ =>
    obtain ⟨cs, hl, hc⟩ := isPolyDeg_iff.1 (h a a' b b')
    exact ⟨cs, hl, fun x => by simpa using hc x⟩

/-- The polynomial object `DensePolynomial::new` builds from a table of length `2^n`. -/
def dn (n : Nat) (Z : List F) : Dense F := ⟨n, Z.length, Z⟩

theorem dn_new {Z : List F} {n : Nat} (h : Z.length = 2 ^ n) : Dense.new Z = .ok (dn n Z) :=
  Dense.new_eq h

/-! ### C28 -/

/-- C28, `prove_cubic`.  For tables of length `2^n` and a combination that is cubic along
lines (the code uses the product), the honest messages for the true sum are accepted;
verifier and prover derive the same point `rs` and transcript; the final claim is the
combination of the multilinear extensions at `rs`, which are also the values returned. -/
theorem proveCubic_complete (h2 : (2 : F) ≠ 0) (h3 : (3 : F) ≠ 0) (E : Env F G P) {n : Nat}
    {A B C : List F} (hA : A.length = 2 ^ n) (hB : B.length = 2 ^ n) (hC : C.length = 2 ^ n)
    {comb : F → F → F → F} (hc : Cubic3 comb) (tr : Tr F P) :
    ∃ polys rs tr',
      proveCubic E (∑ i ∈ Finset.range (2 ^ n), comb (A.getD i 0) (B.getD i 0) (C.getD i 0)) n
        (dn n A) (dn n B) (dn n C) comb tr = .ok (polys, rs, [mle A rs, mle B rs, mle C rs], tr') ∧
      scVerify E polys (∑ i ∈ Finset.range (2 ^ n), comb (A.getD i 0) (B.getD i 0) (C.getD i 0))
        n 3 tr = .ok (comb (mle A rs) (mle B rs) (mle C rs), rs, tr') ∧
      rs.length = n ∧ tr <+: tr' := by
  have hl : ∀ t ∈ [dn n A, dn n B, dn n C], t.Live n := by
    intro t ht
    simp only [List.mem_cons, List.not_mem_nil, or_false] at ht
    rcases ht with rfl | rfl | rfl
    exacts [(dense_new_live hA).1, (dense_new_live hB).1, (dense_new_live hC).1]
  have hi : TInv n [dn n A, dn n B, dn n C] := ⟨by simp, hl⟩
  obtain ⟨cps, rs, s', tr', h1, -, hlen, hr, hv, hf, hp⟩ :=
    scProve_complete h2 h3 E (table_rounds (combDeg3 hc)) n _ tr ⟨hi, rfl⟩
  have hl' : ∀ t ∈ [dn n A, dn n B, dn n C], t.Live rs.length := by rw [hr]; exact hl
  rw [scBind_foldlM rs hl'] at hf
  cases hf
  have hm : ∀ Z : List F, (dn n Z).live = Z := fun Z => by simp [dn, Dense.live]
  rw [tTotal_final (by simp) hl'] at hv
  have hs : tTotal (fun l => comb (l.getD 0 0) (l.getD 1 0) (l.getD 2 0)) [dn n A, dn n B, dn n C]
      = ∑ i ∈ Finset.range (2 ^ n), comb (A.getD i 0) (B.getD i 0) (C.getD i 0) := by
    rw [tTotal_eq hi]; rfl
  rw [hs] at h1 hv
  refine ⟨cps, rs, tr', ?_, ?_, hr, hp⟩
  · unfold proveCubic
    simp only
    rw [h1, ok_bind, scFinals_eq hl', ok_bind]
    simp only [List.map_cons, List.map_nil, hm]; rfl
  · unfold scVerify
    rw [check_true hlen, ok_bind, hv]
    simp [hm]

/-- A one-variable instance over ℚ meets the hypotheses. -/
example : ∃ polys rs tr',
    proveCubic (⟨id, some, fun _ => 5⟩ : Env ℚ ℚ ℚ)
      (∑ i ∈ Finset.range (2 ^ 1), [(1 : ℚ), 2].getD i 0 * [(3 : ℚ), 4].getD i 0 * [(5 : ℚ), 6].getD i 0) 1
      (dn 1 [1, 2]) (dn 1 [3, 4]) (dn 1 [5, 6]) (fun a b c => a * b * c) [] =
        .ok (polys, rs, [mle [1, 2] rs, mle [3, 4] rs, mle [5, 6] rs], tr') := by
  obtain ⟨p, r, t, h, -⟩ := proveCubic_complete (by norm_num) (by norm_num)
    (⟨id, some, fun _ => 5⟩ : Env ℚ ℚ ℚ) (n := 1) (A := [1, 2]) (B := [3, 4]) (C := [5, 6])
    rfl rfl rfl cubic3_product []
  exact ⟨p, r, t, h⟩

/-! Batched version. -/

/-- Shape of a batch with `n` rounds left. -/
structure Batch.Inv (m : Nat) (n : Nat) (b : Batch F) : Prop where
  par : b.parA.length = b.parB.length
  seq1 : b.seqA.length = b.seqB.length
  seq2 : b.seqB.length = b.seqC.length
  pA : ∀ t ∈ b.parA, t.Live n
  pB : ∀ t ∈ b.parB, t.Live n
  pC : b.parC.Live n
  sA : ∀ t ∈ b.seqA, t.Live n
  sB : ∀ t ∈ b.seqB, t.Live n
  sC : ∀ t ∈ b.seqC, t.Live n
  coeffs : b.parA.length + b.seqA.length ≤ m

/-- All tables mapped by a function. -/
def Batch.map (f : Dense F → Dense F) (b : Batch F) : Batch F :=
  ⟨b.parA.map f, b.parB.map f, f b.parC, b.seqA.map f, b.seqB.map f, b.seqC.map f⟩

theorem Batch.map_triples (f : Dense F → Dense F) (b : Batch F) :
    (b.map f).triples = b.triples.map (List.map f) := by
  simp only [Batch.triples, Batch.map, List.map_append, List.map_map, List.zip_map, List.map_map]
  rfl

theorem Batch.Inv.triples {m n : Nat} {b : Batch F} (h : b.Inv m n) :
    ∀ ts ∈ b.triples, TInv n ts ∧ ts.length = 3 := by
  intro ts hts
  simp only [Batch.triples, List.mem_append, List.mem_map] at hts
  rcases hts with ⟨⟨x, y⟩, hxy, rfl⟩ | ⟨⟨x, y, z⟩, hxy, rfl⟩
  · have := List.of_mem_zip hxy
    refine ⟨⟨by simp, ?_⟩, rfl⟩
    intro t ht
    simp only [List.mem_cons, List.not_mem_nil, or_false] at ht
    rcases ht with rfl | rfl | rfl
    exacts [h.pA _ this.1, h.pB _ this.2, h.pC]
  · have h1 := List.of_mem_zip hxy
    have h2 := List.of_mem_zip h1.2
    refine ⟨⟨by simp, ?_⟩, rfl⟩
    intro t ht
    simp only [List.mem_cons, List.not_mem_nil, or_false] at ht
    rcases ht with rfl | rfl | rfl
    exacts [h.sA _ h1.1, h.sB _ h2.1, h.sC _ h2.2]

theorem Batch.Inv.triples_length {m n : Nat} {b : Batch F} (h : b.Inv m n) :
    b.triples.length = b.parA.length + b.seqA.length := by
  simp [Batch.triples, ← h.par, ← h.seq1, ← h.seq2]

theorem Batch.Inv.bind {m n : Nat} {b : Batch F} (h : b.Inv m (n + 1)) (r : F) :
    Batch.bind r b = .ok (b.map (Dense.bt r)) := by
  unfold Batch.bind
  rw [check_true ⟨h.par, h.seq1, h.seq2⟩, ok_bind, scBind_eq h.pA, ok_bind, scBind_eq h.pB, ok_bind,
    h.pC.boundTop, ok_bind, scBind_eq h.sA, ok_bind, scBind_eq h.sB, ok_bind, scBind_eq h.sC, ok_bind]
  rfl

theorem map_bt_live {n : Nat} {ts : List (Dense F)} (h : ∀ t ∈ ts, t.Live (n + 1)) (r : F) :
    ∀ t ∈ ts.map (Dense.bt r), t.Live n := by
  intro t ht
  obtain ⟨t0, h0, rfl⟩ := List.mem_map.1 ht
  exact (h t0 h0).bt r

theorem Batch.Inv.next {m n : Nat} {b : Batch F} (h : b.Inv m (n + 1)) (r : F) :
    (b.map (Dense.bt r)).Inv m n where
  par := by simpa [Batch.map] using h.par
  seq1 := by simpa [Batch.map] using h.seq1
  seq2 := by simpa [Batch.map] using h.seq2
  pA := map_bt_live h.pA r
  pB := map_bt_live h.pB r
  pC := h.pC.bt r
  sA := map_bt_live h.sA r
  sB := map_bt_live h.sB r
  sC := map_bt_live h.sC r
  coeffs := by simpa [Batch.map] using h.coeffs

theorem exists_poly_zip {α : Type} {d : Nat} (f : α → List F) : ∀ (L : List α) (cs : List F),
    (∀ l ∈ L, (f l).length = d) → ∃ q : List F, q.length = d ∧ ∀ x,
      (List.zipWith (fun l c => polyEval (f l) x * c) L cs).sum = polyEval q x
  | [], _, _ => ⟨List.replicate d 0, by simp, fun x => by simp [polyEval_replicate_zero]⟩
  | _ :: _, [], _ => ⟨List.replicate d 0, by simp, fun x => by simp [polyEval_replicate_zero]⟩
  | l :: L, c :: cs, h => by
    obtain ⟨q, hq, hx⟩ := exists_poly_zip f L cs fun l hl => h l (by simp [hl])
    have hl := h l (by simp)
    refine ⟨List.zipWith (· + ·) ((f l).map (c * ·)) q, by simp [hl, hq], fun x => ?_⟩
    rw [polyEval_zipWith_add (by simp [hl, hq]), polyEval_map_mul, ← hx]
    simp [mul_comm]

theorem zipWith_sum_congr {α β : Type} {f g : α → β → F} : ∀ (L : List α) (cs : List β),
    (∀ l ∈ L, ∀ c, f l c = g l c) → (List.zipWith f L cs).sum = (List.zipWith g L cs).sum
  | [], _, _ => by simp
  | _ :: _, [], _ => by simp
  | l :: L, c :: cs, h => by
    simp only [List.zipWith_cons_cons, List.sum_cons]
    rw [h l (by simp), zipWith_sum_congr L cs fun l' h' => h l' (by simp [h'])]

theorem zipWith_sum_add {α β : Type} (f g : α → β → F) : ∀ (L : List α) (cs : List β),
    (List.zipWith f L cs).sum + (List.zipWith g L cs).sum =
      (List.zipWith (fun l c => f l c + g l c) L cs).sum
  | [], _ => by simp
  | _ :: _, [] => by simp
  | l :: L, c :: cs => by
    simp only [List.zipWith_cons_cons, List.sum_cons]
    rw [← zipWith_sum_add f g L cs]; ring

/-- Remaining sum of a batch. -/
def Batch.total (comb : List F → F) (coeffs : List F) (b : Batch F) : F :=
  (List.zipWith (fun ts c => tTotal comb ts * c) b.triples coeffs).sum

theorem batch_rounds {comb : List F → F} (hd : CombDeg 3 3 comb) (coeffs : List F) :
    Rounds (Batch.points comb coeffs) Batch.bind pts3 3 (Batch.Inv coeffs.length)
      (Batch.total comb coeffs) := by
  constructor
  intro n b h
  have key : ∀ ts : List (Dense F), ∃ cs : List F, TInv (n + 1) ts ∧ ts.length = 3 →
      cs.length = 3 + 1 ∧ polyEval cs 0 + polyEval cs 1 = tTotal comb ts ∧
      scPoints comb ts = .ok (pts3 cs) ∧
      ∀ r, scBind r ts = .ok (ts.map (Dense.bt r)) ∧
        tTotal comb (ts.map (Dense.bt r)) = polyEval cs r := by
    intro ts
    by_cases hts : TInv (n + 1) ts ∧ ts.length = 3
    · obtain ⟨cs, hcs⟩ := table_round hd hts.1 hts.2
      exact ⟨cs, fun _ => hcs⟩
    · exact ⟨[], fun h => absurd h hts⟩
  choose f hf using key
  have ht := h.triples
  obtain ⟨q, hq, hx⟩ := exists_poly_zip f b.triples coeffs fun ts hts => (hf ts (ht ts hts)).1
  refine ⟨q, hq, ?_, ?_, ?_⟩
  · rw [← hx, ← hx, zipWith_sum_add, Batch.total]
    exact zipWith_sum_congr _ _ fun ts hts c => by rw [← (hf ts (ht ts hts)).2.1]; ring
  · unfold Batch.points
    rw [mapM_ok _ (fun ts => pts3 (f ts)) _ fun ts hts => (hf ts (ht ts hts)).2.2.1, ok_bind,
      check_true (by rw [List.length_map, h.triples_length]; exact h.coeffs), ok_bind]
    simp only [List.zipWith_map_left, pts3, ← hx]; rfl
  · intro r
    refine ⟨_, h.bind r, h.next r, ?_⟩
    rw [Batch.total, Batch.map_triples, List.zipWith_map_left, ← hx]
    exact zipWith_sum_congr _ _ fun ts hts c => by rw [((hf ts (ht ts hts)).2.2.2 r).2]

theorem batch_foldlM {m : Nat} : ∀ (rs : List F) {b : Batch F}, b.Inv m rs.length →
    rs.foldlM (fun s r => Batch.bind r s) b =
      .ok (b.map fun t => rs.foldl (fun t r => t.bt r) t)
  | [], b, _ => by simp [pure_ok, Batch.map]
  | r :: rs, b, h => by
    rw [List.foldlM_cons, h.bind, ok_bind, batch_foldlM rs (h.next r)]
    simp [Batch.map]

/-- The true sum of a batched instance: `par` are the pairs sharing the table `C`, `seq`
the triples with tables of their own, `coeffs` the weights. -/
def batchSum (comb : F → F → F → F) (n : Nat) (par : List (List F × List F)) (C : List F)
    (seq : List (List F × List F × List F)) (coeffs : List F) : F :=
  (List.zipWith (fun s c => s * c)
    (par.map (fun p => ∑ i ∈ Finset.range (2 ^ n), comb (p.1.getD i 0) (p.2.getD i 0) (C.getD i 0)) ++
     seq.map (fun p => ∑ i ∈ Finset.range (2 ^ n),
       comb (p.1.getD i 0) (p.2.1.getD i 0) (p.2.2.getD i 0))) coeffs).sum

/-- The same combination of the multilinear extensions at a point. -/
def batchAt (comb : F → F → F → F) (rs : List F) (par : List (List F × List F)) (C : List F)
    (seq : List (List F × List F × List F)) (coeffs : List F) : F :=
  (List.zipWith (fun s c => s * c)
    (par.map (fun p => comb (mle p.1 rs) (mle p.2 rs) (mle C rs)) ++
     seq.map (fun p => comb (mle p.1 rs) (mle p.2.1 rs) (mle p.2.2 rs))) coeffs).sum

/-- The batch of polynomials built from tables. -/
def batchOf (n : Nat) (par : List (List F × List F)) (C : List F)
    (seq : List (List F × List F × List F)) : Batch F :=
  ⟨par.map (fun p => dn n p.1), par.map (fun p => dn n p.2), dn n C,
    seq.map (fun p => dn n p.1), seq.map (fun p => dn n p.2.1), seq.map (fun p => dn n p.2.2)⟩

theorem batchOf_triples (n : Nat) (par : List (List F × List F)) (C : List F)
    (seq : List (List F × List F × List F)) :
    (batchOf n par C seq).triples = par.map (fun p => [dn n p.1, dn n p.2, dn n C]) ++
      seq.map (fun p => [dn n p.1, dn n p.2.1, dn n p.2.2]) := by
  simp only [Batch.triples, batchOf, List.zip_map', List.map_map]
  rfl

/-- C28, `prove_cubic_batched`. -/
theorem proveCubicBatched_complete (h2 : (2 : F) ≠ 0) (h3 : (3 : F) ≠ 0) (E : Env F G P) {n : Nat}
    {par : List (List F × List F)} {C : List F} {seq : List (List F × List F × List F)}
    (hp : ∀ p ∈ par, p.1.length = 2 ^ n ∧ p.2.length = 2 ^ n) (hC : C.length = 2 ^ n)
    (hs : ∀ p ∈ seq, p.1.length = 2 ^ n ∧ p.2.1.length = 2 ^ n ∧ p.2.2.length = 2 ^ n)
    {coeffs : List F} (hco : par.length + seq.length ≤ coeffs.length)
    {comb : F → F → F → F} (hc : Cubic3 comb) (tr : Tr F P) :
    ∃ polys rs tr',
      proveCubicBatched E (batchSum comb n par C seq coeffs) n (batchOf n par C seq) coeffs comb tr
        = .ok (polys, rs, ⟨par.map (fun p => mle p.1 rs), par.map (fun p => mle p.2 rs), mle C rs,
            seq.map (fun p => mle p.1 rs), seq.map (fun p => mle p.2.1 rs),
            seq.map (fun p => mle p.2.2 rs)⟩, tr') ∧
      scVerify E polys (batchSum comb n par C seq coeffs) n 3 tr =
        .ok (batchAt comb rs par C seq coeffs, rs, tr') ∧
      rs.length = n ∧ tr <+: tr' := by
  have hinv : (batchOf n par C seq).Inv coeffs.length n := by
    refine ⟨by simp [batchOf], by simp [batchOf], by simp [batchOf], ?_, ?_, (dense_new_live hC).1,
      ?_, ?_, ?_, by simpa [batchOf] using hco⟩ <;>
    · intro t ht
      simp only [batchOf, List.mem_map] at ht
      obtain ⟨p, hp', rfl⟩ := ht
      first
        | exact (dense_new_live (hp p hp').1).1
        | exact (dense_new_live (hp p hp').2).1
        | exact (dense_new_live (hs p hp').1).1
        | exact (dense_new_live (hs p hp').2.1).1
        | exact (dense_new_live (hs p hp').2.2).1
  obtain ⟨cps, rs, s', tr', h1, -, hlen, hr, hv, hf, hpre⟩ :=
    scProve_complete h2 h3 E (batch_rounds (combDeg3 hc) coeffs) n _ tr hinv
  have hinv' : (batchOf n par C seq).Inv coeffs.length rs.length := by rw [hr]; exact hinv
  rw [batch_foldlM rs hinv'] at hf
  cases hf
  have hm : ∀ Z : List F, (dn n Z).live = Z := fun Z => by simp [dn, Dense.live]
  have e1 : Batch.total (fun l => comb (l.getD 0 0) (l.getD 1 0) (l.getD 2 0)) coeffs
      (batchOf n par C seq) = batchSum comb n par C seq coeffs := by
    unfold Batch.total batchSum
    rw [← List.zipWith_map_left (f := tTotal (fun l => comb (l.getD 0 0) (l.getD 1 0) (l.getD 2 0)))
      (g := fun s c => s * c), batchOf_triples, List.map_append, List.map_map, List.map_map]
    have : ∀ ts ∈ (batchOf n par C seq).triples, TInv n ts := fun ts h => (hinv.triples ts h).1
    rw [batchOf_triples] at this
    congr 3
    · apply List.map_congr_left; intro p hp'
      simp only [Function.comp]
      rw [tTotal_eq (this _ (List.mem_append_left _ (List.mem_map.2 ⟨p, hp', rfl⟩)))]; rfl
    · apply List.map_congr_left; intro p hp'
      simp only [Function.comp]
      rw [tTotal_eq (this _ (List.mem_append_right _ (List.mem_map.2 ⟨p, hp', rfl⟩)))]; rfl
  have e2 : Batch.total (fun l => comb (l.getD 0 0) (l.getD 1 0) (l.getD 2 0)) coeffs
      ((batchOf n par C seq).map fun t => rs.foldl (fun t r => t.bt r) t) =
      batchAt comb rs par C seq coeffs := by
    unfold Batch.total batchAt
    rw [← List.zipWith_map_left (f := tTotal (fun l => comb (l.getD 0 0) (l.getD 1 0) (l.getD 2 0)))
      (g := fun s c => s * c), Batch.map_triples, batchOf_triples, List.map_append, List.map_map,
      List.map_append, List.map_map, List.map_map, List.map_map]
    have : ∀ ts ∈ (batchOf n par C seq).triples, TInv rs.length ts := fun ts h => (hinv'.triples ts h).1
    rw [batchOf_triples] at this
    congr 3
    · apply List.map_congr_left; intro p hp'
      have ht := this _ (List.mem_append_left _ (List.mem_map.2 ⟨p, hp', rfl⟩))
      simp only [Function.comp]
      rw [tTotal_final ht.1 ht.2]; simp [hm]
    · apply List.map_congr_left; intro p hp'
      have ht := this _ (List.mem_append_right _ (List.mem_map.2 ⟨p, hp', rfl⟩))
      simp only [Function.comp]
      rw [tTotal_final ht.1 ht.2]; simp [hm]
  rw [e1] at h1 hv
  rw [e2] at hv
  refine ⟨cps, rs, tr', ?_, ?_, hr, hpre⟩
  · unfold proveCubicBatched
    simp only
    rw [h1, ok_bind]
    have hpC : ∀ t ∈ [(batchOf n par C seq).parC], t.Live rs.length := by
      intro t ht; rw [List.mem_singleton] at ht; rw [ht]; exact hinv'.pC
    have hfC := (foldl_bt_final rs _ hinv'.pC)
    simp only [Batch.map]
    rw [scFinals_eq hinv'.pA, ok_bind, scFinals_eq hinv'.pB, ok_bind,
      idx_ok (by have := hfC.1.le; simp at this; omega) 0, ok_bind, scFinals_eq hinv'.sA, ok_bind,
      scFinals_eq hinv'.sB, ok_bind, scFinals_eq hinv'.sC, ok_bind, hfC.2]
    simp only [batchOf, List.map_map, Function.comp_def, hm]; rfl
  · unfold scVerify
    rw [check_true hlen, ok_bind, hv]

/-- A batch with one shared pair and one dot-product triple, one round, over ℚ. -/
example : ∃ polys rs tr',
    scVerify (⟨id, some, fun _ => 5⟩ : Env ℚ ℚ ℚ) polys
      (batchSum (fun a b c => a * b * c) 1 [([1, 2], [3, 4])] [5, 6] [([7, 8], [9, 1], [2, 3])] [4, 5])
      1 3 [] = .ok (batchAt (fun a b c => a * b * c) rs [([1, 2], [3, 4])] [5, 6]
        [([7, 8], [9, 1], [2, 3])] [4, 5], rs, tr') := by
  obtain ⟨p, r, t, -, h, -⟩ := proveCubicBatched_complete (by norm_num) (by norm_num)
    (⟨id, some, fun _ => 5⟩ : Env ℚ ℚ ℚ) (n := 1) (par := [([1, 2], [3, 4])]) (C := [5, 6])
    (seq := [([7, 8], [9, 1], [2, 3])]) (by simp) (by simp) (by simp) (coeffs := [4, 5]) (by simp)
    cubic3_product []
  exact ⟨p, r, t, h⟩

/-! ### C30 -/

theorem tape_zip_snd (tape tape2 : Tape F) (n : Nat) :
    (List.zip (tape.nextVec n).1 (tape2.nextVec n).1).map (·.2) = (tape2.nextVec n).1 := by
  rw [List.map_snd_zip]; simp

/-- Shared part of the two C30 theorems. -/
theorem zk_complete_core {d m : Nat} {E : Env F G P} (hE : E.Lawful) {g0 h : G} {gensn : Gens G}
    (hg : gensn.WF) (hn : gensn.n = d + 1) {comb : List F → F} (hd : CombDeg d m comb)
    {points : List (Dense F) → Out (List F)} {pts : List F → List F}
    (hpts : ∀ ts cs, scPoints comb ts = .ok (pts3 cs) → points ts = .ok (pts cs))
    (hfe : ∀ cs : List F, cs.length = d + 1 → ∃ rest, pts cs = polyEval cs 0 :: rest ∧
      UniPoly.fromEvals (polyEval cs 0 :: polyEval cs 1 :: rest) = .ok ⟨cs⟩)
    {n : Nat} (hn1 : 1 ≤ n) {ts : List (Dense F)} (ht : TInv n ts) (hm : ts.length = m)
    (bclaim : F) (tr : Tr F P) (tape : Tape F) :
    ∃ zk rs b tr' tape',
      zkProve E points (tTotal comb ts) bclaim n ts (Gens.single g0 h) gensn tr tape =
        .ok (zk, rs, ts.map (fun t => mle t.live rs), b, tr', tape') ∧
      zkVerify E zk (E.compress (tTotal comb ts • g0 + bclaim • h)) n d (Gens.single g0 h) gensn tr =
        .ok (E.compress (comb (ts.map fun t => mle t.live rs) • g0 + b • h), rs, tr') ∧
      rs.length = n ∧ tr <+: tr' := by
  have R : Rounds points scBind pts d (fun n ts => TInv n ts ∧ ts.length = m) (tTotal comb) := by
    constructor
    rintro n ts ⟨h, hm⟩
    obtain ⟨cs, h1, h2, h3, h4⟩ := table_round hd h hm
    exact ⟨cs, h1, h2, hpts _ _ h3, fun r => ⟨_, (h4 r).1, ⟨tinv_bt h r, by simpa using hm⟩, (h4 r).2⟩⟩
  set bl := List.zip (tape.nextVec n).1 ((tape.nextVec n).2.nextVec n).1 with hbl
  have hbll : bl.length = n := by simp [hbl]
  obtain ⟨zk, rs, s', tr', tape', h1, -, hc1, hc2, hr, hf, hv, hlast, hpre⟩ :=
    zkProve_complete hE hg hn R hfe (h := h) (g0 := g0) bl ts bclaim tr ((tape.nextVec n).2.nextVec n).2
      (by rw [hbll]; exact ⟨ht, hm⟩)
  rw [hbll] at hc1 hc2 hr
  have hl : ∀ t ∈ ts, t.Live rs.length := by rw [hr]; exact ht.2
  rw [scBind_foldlM rs hl] at hf
  cases hf
  rw [tTotal_final ht.1 hl] at hlast
  have hbes : (((tape.nextVec n).2.nextVec n).1).length = n := by simp
  refine ⟨zk, rs, ((tape.nextVec n).2.nextVec n).1.getD (n - 1) 0, tr', tape', ?_, ?_, hr, hpre⟩
  · unfold zkProve
    simp only
    rw [commit1_single, ok_bind, ← hbl, h1, ok_bind]
    simp only
    rw [scFinals_eq hl, ok_bind, check_true hn1, ok_bind, idx_ok (by rw [hbes]; omega) 0, ok_bind]
    rfl
  · unfold zkVerify
    rw [check_true hn, ok_bind, check_true hc1, ok_bind, check_true hc2, ok_bind, hv, ok_bind]
    simp only
    rw [check_true (by omega), ok_bind, idx_ok (by omega) (E.compress 0), ok_bind]
    have e : zk.commEvals.getD (zk.commEvals.length - 1) (E.compress 0) =
        zk.commEvals.getLastD (E.compress (tTotal comb ts • g0 + bclaim • h)) := by
      have hne : zk.commEvals ≠ [] := by intro h0; rw [h0] at hc2; simp at hc2; omega
      rw [List.getLastD_eq_getLast?, List.getLast?_eq_getElem?, List.getD_eq_getElem?_getD,
        List.getElem?_eq_getElem (by omega)]; rfl
    have e' : (bl.map (·.2)).getLastD bclaim = ((tape.nextVec n).2.nextVec n).1.getD (n - 1) 0 := by
      rw [hbl, tape_zip_snd, List.getLastD_eq_getLast?, List.getLast?_eq_getElem?,
        List.getD_eq_getElem?_getD, hbes, List.getElem?_eq_getElem (by omega)]; rfl
    rw [e, hlast, e']; rfl

/-- C30, `prove_quad`: for tables of length `2^n`, `n ≥ 1`, the honest proof is accepted
against the commitment to the true sum; the verifier returns the commitment to the
combination of the evaluations at the common point `rs` under the returned blind `b`. -/
theorem proveQuad_complete (h2 : (2 : F) ≠ 0) {E : Env F G P} (hE : E.Lawful) {g0 h : G}
    {gensn : Gens G} (hg : gensn.WF) (hn : gensn.n = 3) {n : Nat} (hn1 : 1 ≤ n) {A B : List F}
    (hA : A.length = 2 ^ n) (hB : B.length = 2 ^ n) {comb : F → F → F} (hc : Quad2 comb)
    (bclaim : F) (tr : Tr F P) (tape : Tape F) :
    ∃ zk rs b tr' tape',
      proveQuad E (∑ i ∈ Finset.range (2 ^ n), comb (A.getD i 0) (B.getD i 0)) bclaim n (dn n A)
        (dn n B) comb (Gens.single g0 h) gensn tr tape =
        .ok (zk, rs, [mle A rs, mle B rs], b, tr', tape') ∧
      zkVerify E zk (E.compress ((∑ i ∈ Finset.range (2 ^ n), comb (A.getD i 0) (B.getD i 0)) • g0
        + bclaim • h)) n 2 (Gens.single g0 h) gensn tr =
        .ok (E.compress (comb (mle A rs) (mle B rs) • g0 + b • h), rs, tr') ∧
      rs.length = n ∧ tr <+: tr' := by
  have hi : TInv n [dn n A, dn n B] := by
    refine ⟨by simp, ?_⟩
    intro t ht
    simp only [List.mem_cons, List.not_mem_nil, or_false] at ht
    rcases ht with rfl | rfl
    exacts [(dense_new_live hA).1, (dense_new_live hB).1]
  have hs : tTotal (fun l => comb (l.getD 0 0) (l.getD 1 0)) [dn n A, dn n B]
      = ∑ i ∈ Finset.range (2 ^ n), comb (A.getD i 0) (B.getD i 0) := by rw [tTotal_eq hi]; rfl
  have hm : ∀ Z : List F, (dn n Z).live = Z := fun Z => by simp [dn, Dense.live]
  obtain ⟨zk, rs, b, tr', tape', h1, hv, hr⟩ := zk_complete_core hE (h := h) (g0 := g0) hg hn
    (combDeg2 hc) (points := fun ts => do
      let (e0, e2, _) ← scPoints (fun l => comb (l.getD 0 0) (l.getD 1 0)) ts
      pure [e0, e2]) (pts := fun cs => [polyEval cs 0, polyEval cs 2])
    (by intro ts cs hp; simp only [hp, ok_bind]; rfl)
    (by intro cs hl; exact ⟨[polyEval cs 2], rfl, fromEvals_quad_eq h2 hl⟩) hn1 hi rfl bclaim tr tape
  rw [hs] at h1 hv
  simp only [List.map_cons, List.map_nil, hm, List.getD_cons_zero, List.getD_cons_succ] at h1 hv
  exact ⟨zk, rs, b, tr', tape', h1, hv, hr⟩

/-- C30, `prove_cubic_with_additive_term`. -/
theorem proveCubicAdditive_complete (h2 : (2 : F) ≠ 0) (h3 : (3 : F) ≠ 0) {E : Env F G P}
    (hE : E.Lawful) {g0 h : G} {gensn : Gens G} (hg : gensn.WF) (hn : gensn.n = 4) {n : Nat}
    (hn1 : 1 ≤ n) {A B C D : List F} (hA : A.length = 2 ^ n) (hB : B.length = 2 ^ n)
    (hC : C.length = 2 ^ n) (hD : D.length = 2 ^ n) {comb : F → F → F → F → F} (hc : Cubic4 comb)
    (bclaim : F) (tr : Tr F P) (tape : Tape F) :
    ∃ zk rs b tr' tape',
      proveCubicAdditive E (∑ i ∈ Finset.range (2 ^ n),
          comb (A.getD i 0) (B.getD i 0) (C.getD i 0) (D.getD i 0)) bclaim n (dn n A)
        (dn n B) (dn n C) (dn n D) comb (Gens.single g0 h) gensn tr tape =
        .ok (zk, rs, [mle A rs, mle B rs, mle C rs, mle D rs], b, tr', tape') ∧
      zkVerify E zk (E.compress ((∑ i ∈ Finset.range (2 ^ n),
          comb (A.getD i 0) (B.getD i 0) (C.getD i 0) (D.getD i 0)) • g0
        + bclaim • h)) n 3 (Gens.single g0 h) gensn tr =
        .ok (E.compress (comb (mle A rs) (mle B rs) (mle C rs) (mle D rs) • g0 + b • h), rs, tr') ∧
      rs.length = n ∧ tr <+: tr' := by
  have hi : TInv n [dn n A, dn n B, dn n C, dn n D] := by
    refine ⟨by simp, ?_⟩
    intro t ht
    simp only [List.mem_cons, List.not_mem_nil, or_false] at ht
    rcases ht with rfl | rfl | rfl | rfl
    exacts [(dense_new_live hA).1, (dense_new_live hB).1, (dense_new_live hC).1, (dense_new_live hD).1]
  have hs : tTotal (fun l => comb (l.getD 0 0) (l.getD 1 0) (l.getD 2 0) (l.getD 3 0))
      [dn n A, dn n B, dn n C, dn n D]
      = ∑ i ∈ Finset.range (2 ^ n), comb (A.getD i 0) (B.getD i 0) (C.getD i 0) (D.getD i 0) := by
    rw [tTotal_eq hi]; rfl
  have hm : ∀ Z : List F, (dn n Z).live = Z := fun Z => by simp [dn, Dense.live]
  obtain ⟨zk, rs, b, tr', tape', h1, hv, hr⟩ := zk_complete_core hE (h := h) (g0 := g0) hg hn
    (combDeg4 hc) (points := fun ts => do
      let (e0, e2, e3) ← scPoints
        (fun l => comb (l.getD 0 0) (l.getD 1 0) (l.getD 2 0) (l.getD 3 0)) ts
      pure [e0, e2, e3]) (pts := fun cs => [polyEval cs 0, polyEval cs 2, polyEval cs 3])
    (by intro ts cs hp; simp only [hp, ok_bind]; rfl)
    (by intro cs hl; exact ⟨[polyEval cs 2, polyEval cs 3], rfl, fromEvals_cubic_eq h2 h3 hl⟩)
    hn1 hi rfl bclaim tr tape
  rw [hs] at h1 hv
  simp only [List.map_cons, List.map_nil, hm, List.getD_cons_zero, List.getD_cons_succ] at h1 hv
  exact ⟨zk, rs, b, tr', tape', h1, hv, hr⟩

/-- C30: zero rounds panic on both sides. -/
theorem zk_zero_rounds_panic (E : Env F G P) (pf : ZKSumcheck F P) (claim : P) (deg : Nat)
    (gens1 gensn : Gens G) (tr : Tr F P) : zkVerify E pf claim 0 deg gens1 gensn tr = .error .panic := by
  unfold zkVerify
  by_cases h1 : gensn.n = deg + 1
  · rw [check_true h1, ok_bind]
    by_cases h2 : pf.commPolys.length = 0
    · rw [check_true h2, ok_bind]
      by_cases h3 : pf.commEvals.length = 0
      · rw [check_true h3, ok_bind]
        have : pf.commPolys = [] := by simpa using h2
        rw [this]
        simp only [zkVerifyLoop]
        rw [ok_bind]
        simp only
        rw [check_false (by omega)]; rfl
      · rw [check_false h3]; rfl
    · rw [check_false h2]; rfl
  · rw [check_false h1]; rfl

example : ∃ zk rs b tr' tape', proveQuad (⟨id, some, fun _ => 5⟩ : Env ℚ ℚ ℚ)
    (∑ i ∈ Finset.range (2 ^ 1), [(1 : ℚ), 2].getD i 0 * [(3 : ℚ), 4].getD i 0) 9 1 (dn 1 [1, 2])
    (dn 1 [3, 4]) (fun a b => a * b) (Gens.single 1 2) ⟨3, [1, 2, 3], 4⟩ [] (fun i => i) =
    .ok (zk, rs, [mle [1, 2] rs, mle [3, 4] rs], b, tr', tape') := by
  obtain ⟨z, r, b, t, tp, h, -⟩ := proveQuad_complete (by norm_num)
    (E := (⟨id, some, fun _ => 5⟩ : Env ℚ ℚ ℚ)) (fun _ => rfl) (g0 := 1) (h := 2)
    (gensn := ⟨3, [1, 2, 3], 4⟩) rfl rfl (n := 1) le_rfl (A := [1, 2]) (B := [3, 4]) rfl rfl
    quad2_product 9 [] (fun i => i)
  exact ⟨z, r, b, t, tp, h⟩

end Spartan
