import Verif.Lemmas.ProofSize
import Verif.Props.SNARKSound

/-! Lengths of the vectors in a SNARK that the prover returns. -/

namespace Spartan

variable {F G P : Type} [Field F] [AddCommGroup G] [Module F G] [DecidableEq F] [DecidableEq P] [DecidableEq G]

/-- Sizes of a batched product proof over `2^n` leaves: layer `i` has `i` rounds with three
coefficients each, and one pair of claims for each of the `w` circuits; `d` dot-product circuits. -/
structure ProdProofBatched.Sizes (pf : ProdProofBatched F) (n w d : Nat) : Prop where
  layers : pf.proof.length = n
  layer : ∀ (i : Nat) (lp : LayerProofBatched F), pf.proof[i]? = some lp → lp.proof.length = i ∧ (∀ p ∈ lp.proof, p.coeffs.length = 3) ∧
    lp.left.length = w ∧ lp.right.length = w
  dotpL : pf.dotpL.length = d
  dotpR : pf.dotpR.length = d
  dotpW : pf.dotpW.length = d

/-- Sizes of the vectors of a SNARK: `k` rounds in the first sum-check, `2^j` variables, `2^n`
(padded) entries in each matrix; the memories have `2^m` cells. -/
structure SNARK.Sizes (pf : SNARK F P) (k j m n : Nat) : Prop where
  sat : pf.sat.Sizes k j
  derefs : pf.eval.derefs.length = 2 ^ ((n + 3) / 2)
  rowRead : pf.eval.net.prod.row.read.length = 3
  rowWrite : pf.eval.net.prod.row.write.length = 3
  colRead : pf.eval.net.prod.col.read.length = 3
  colWrite : pf.eval.net.prod.col.write.length = 3
  dotpL : pf.eval.net.prod.dotpL.length = 3
  dotpR : pf.eval.net.prod.dotpR.length = 3
  memProof : pf.eval.net.prod.mem.Sizes m 4 0
  opsProof : pf.eval.net.prod.ops.Sizes n 12 6
  rowAddr : pf.eval.net.hash.row.addr.length = 3
  rowTs : pf.eval.net.hash.row.readTs.length = 3
  colAddr : pf.eval.net.hash.col.addr.length = 3
  colTs : pf.eval.net.hash.col.readTs.length = 3
  val : pf.eval.net.hash.val.length = 3
  derefRow : pf.eval.net.hash.derefRow.length = 3
  derefCol : pf.eval.net.hash.derefCol.length = 3
  opsL : pf.eval.net.hash.ops.bullet.L.length = (n + 4) - (n + 4) / 2
  opsR : pf.eval.net.hash.ops.bullet.R.length = (n + 4) - (n + 4) / 2
  memL : pf.eval.net.hash.mem.bullet.L.length = (m + 1) - (m + 1) / 2
  memR : pf.eval.net.hash.mem.bullet.R.length = (m + 1) - (m + 1) / 2
  derefsL : pf.eval.net.hash.derefs.bullet.L.length = (n + 3) - (n + 3) / 2
  derefsR : pf.eval.net.hash.derefs.bullet.R.length = (n + 3) - (n + 3) / 2

theorem challengeVec_len {E : Env F G P} {l : String} : ∀ {n : Nat} {tr : Tr F P},
    (E.challengeVec tr l n).1.length = n
  | 0, _ => rfl
  | n + 1, tr => by
    simp only [Env.challengeVec, List.length_cons]
    rw [challengeVec_len]

theorem scProveLoop_len {S : Type} {E : Env F G P} {points : S → Out (F × F × F)} {bind : F → S → Out S}
    {Q : S → Prop} (hQ : ∀ r s s', Q s → bind r s = .ok s' → Q s') :
    ∀ (n : Nat) {e : F} {s : S} {tr : Tr F P} {res : List (CompressedUniPoly F) × List F × S × Tr F P},
      Q s → scProveLoop E points bind n e s tr = .ok res →
      res.1.length = n ∧ (∀ p ∈ res.1, p.coeffs.length = 3) ∧ res.2.1.length = n ∧ Q res.2.2.1
  | 0, e, s, tr, res, hs, h => by
    unfold scProveLoop at h
    cases h
    exact ⟨rfl, by simp, rfl, hs⟩
  | n + 1, e, s, tr, res, hs, h => by
    unfold scProveLoop at h
    simp only [Env.challenge] at h
    obtain ⟨_, -, h⟩ := bind_ok h
    obtain ⟨poly, hp, h⟩ := bind_ok h
    obtain ⟨s', hs', h⟩ := bind_ok h
    obtain ⟨_, -, h⟩ := bind_ok h
    obtain ⟨cp, hcp, h⟩ := bind_ok h
    obtain ⟨w, hw, h⟩ := bind_ok h
    cases h
    obtain ⟨a1, a2, a3, a4⟩ := scProveLoop_len hQ n (hQ _ _ _ hs hs') hw
    have hl := fromEvals_len hp
    have hc : cp.coeffs.length = 3 := by
      unfold UniPoly.compress at hcp
      split at hcp
      · rename_i heq
        cases hcp
        rw [heq] at hl
        simp only [List.length_cons, List.length_nil] at hl ⊢
        omega
      · cases hcp
    refine ⟨by simp [a1], ?_, by simp [a3], a4⟩
    intro p hp'
    rcases List.mem_cons.mp hp' with rfl | hp'
    · exact hc
    · exact a2 p hp'

/-- Numbers of tables in the state of the batched sum-check. -/
def Batch.Lens (w d : Nat) (b : Batch F) : Prop :=
  b.parA.length = w ∧ b.parB.length = w ∧ b.seqA.length = d ∧ b.seqB.length = d ∧ b.seqC.length = d

theorem batchBind_lens {w d : Nat} {r : F} {b b' : Batch F} (hb : b.Lens w d) (h : Batch.bind r b = .ok b') :
    b'.Lens w d := by
  unfold Batch.bind at h
  obtain ⟨_, -, h⟩ := bind_ok h
  obtain ⟨_, a1, h⟩ := bind_ok h
  obtain ⟨_, a2, h⟩ := bind_ok h
  obtain ⟨_, -, h⟩ := bind_ok h
  obtain ⟨_, a3, h⟩ := bind_ok h
  obtain ⟨_, a4, h⟩ := bind_ok h
  obtain ⟨_, a5, h⟩ := bind_ok h
  cases h
  obtain ⟨b1, b2, b3, b4, b5⟩ := hb
  exact ⟨(mapM_length a1).trans b1, (mapM_length a2).trans b2, (mapM_length a3).trans b3,
    (mapM_length a4).trans b4, (mapM_length a5).trans b5⟩

theorem proveCubicBatched_len {E : Env F G P} {claim : F} {n w d : Nat} {b : Batch F} (hb : b.Lens w d)
    {coeffs : List F} {comb : F → F → F → F} {tr : Tr F P}
    {res : List (CompressedUniPoly F) × List F × BatchFinal F × Tr F P}
    (h : proveCubicBatched E claim n b coeffs comb tr = .ok res) :
    res.1.length = n ∧ (∀ p ∈ res.1, p.coeffs.length = 3) ∧ res.2.1.length = n ∧
      res.2.2.1.parA.length = w ∧ res.2.2.1.parB.length = w ∧ res.2.2.1.seqA.length = d ∧
      res.2.2.1.seqB.length = d ∧ res.2.2.1.seqC.length = d := by
  unfold proveCubicBatched at h
  simp only at h
  obtain ⟨q, hq, h⟩ := bind_ok h
  obtain ⟨_, a1, h⟩ := bind_ok h
  obtain ⟨_, a2, h⟩ := bind_ok h
  obtain ⟨_, -, h⟩ := bind_ok h
  obtain ⟨_, a3, h⟩ := bind_ok h
  obtain ⟨_, a4, h⟩ := bind_ok h
  obtain ⟨_, a5, h⟩ := bind_ok h
  cases h
  obtain ⟨c1, c2, c3, b1, b2, b3, b4, b5⟩ := scProveLoop_len (Q := Batch.Lens w d)
    (fun _ _ _ => batchBind_lens) n hb hq
  exact ⟨c1, c2, c3, (mapM_length a1).trans b1, (mapM_length a2).trans b2, (mapM_length a3).trans b3,
    (mapM_length a4).trans b4, (mapM_length a5).trans b5⟩

theorem prodBProveLoop_len {E : Env F G P} {cs : List (ProductCircuit F)} {ds : List (DotProductCircuit F)} :
    ∀ (n : Nat) {claims rand : List F} {tr : Tr F P}
      {res : List (LayerProofBatched F) × (List F × List F × List F) × List F × Tr F P},
      prodBProveLoop E cs ds n claims rand tr = .ok res →
      res.1.length = n ∧
      (∀ (i : Nat) (lp : LayerProofBatched F), res.1[i]? = some lp → lp.proof.length = rand.length + i ∧
        (∀ p ∈ lp.proof, p.coeffs.length = 3) ∧ lp.left.length = cs.length ∧ lp.right.length = cs.length) ∧
      (1 ≤ n → res.2.1.1.length = ds.length ∧ res.2.1.2.1.length = ds.length ∧
        res.2.1.2.2.length = ds.length) ∧
      res.2.2.1.length = rand.length + n
  | 0, claims, rand, tr, res, h => by
    unfold prodBProveLoop at h
    cases h
    simp
  | k + 1, claims, rand, tr, res, h => by
    unfold prodBProveLoop at h
    simp only [Env.challenge] at h
    obtain ⟨ls, hls, h⟩ := bind_ok h
    obtain ⟨rs, hrs, h⟩ := bind_ok h
    obtain ⟨_, -, h⟩ := bind_ok h
    obtain ⟨_, -, h⟩ := bind_ok h
    obtain ⟨C, hC, h⟩ := bind_ok h
    obtain ⟨_, -, h⟩ := bind_ok h
    obtain ⟨n, hn, h⟩ := bind_ok h
    obtain ⟨_, -, h⟩ := bind_ok h
    obtain ⟨q, hq, h⟩ := bind_ok h
    obtain ⟨_, -, h⟩ := bind_ok h
    obtain ⟨w, hw, h⟩ := bind_ok h
    cases h
    have hnr : n = rand.length := by
      rw [Dense.new_eq (eqEvals_length rand)] at hC
      cases hC
      rw [log2_ok hn, eqEvals_length]
      exact Nat.clog_pow 2 _ (by norm_num)
    have hlen : Batch.Lens cs.length (if k = 0 then ds else []).length
        (⟨ls, rs, C, (if k = 0 then ds else []).map (·.left), (if k = 0 then ds else []).map (·.right),
          (if k = 0 then ds else []).map (·.weight)⟩ : Batch F) :=
      ⟨mapM_length hls, mapM_length hrs, by simp, by simp, by simp⟩
    obtain ⟨a1, a2, a3, a4, a5, a6, a7, a8⟩ := proveCubicBatched_len hlen hq
    obtain ⟨b1, b2, b3, b4⟩ := prodBProveLoop_len k hw
    rw [List.length_cons, a3, hnr] at b2 b4
    refine ⟨by simp [b1], ?_, ?_, by rw [b4]; omega⟩
    · intro i lp hi
      cases i with
      | zero =>
        simp only [List.getElem?_cons_zero, Option.some.injEq] at hi
        subst hi
        exact ⟨by rw [a1, hnr]; rfl, a2, a4, a5⟩
      | succ i =>
        simp only [List.getElem?_cons_succ] at hi
        obtain ⟨c1, c2⟩ := b2 i lp hi
        exact ⟨by rw [c1]; omega, c2⟩
    · intro _
      by_cases hk : k = 0
      · simp only [hk, if_true] at a6 a7 a8 ⊢
        exact ⟨a6, a7, a8⟩
      · simp only [hk, if_false]
        exact b3 (by omega)

theorem prodBProve_len {E : Env F G P} {cs : List (ProductCircuit F)} {ds : List (DotProductCircuit F)}
    {tr : Tr F P} {res : ProdProofBatched F × List F × Tr F P} {c0 : ProductCircuit F} {n : Nat}
    (hc : idx cs 0 = .ok c0) (hn : c0.left.length = n) (h1 : 1 ≤ n)
    (h : prodBProve E cs ds tr = .ok res) :
    res.1.Sizes n cs.length ds.length ∧ res.2.1.length = n := by
  unfold prodBProve at h
  rw [hc, ok_bind] at h
  obtain ⟨_, -, h⟩ := bind_ok h
  obtain ⟨q, hq, h⟩ := bind_ok h
  obtain ⟨q1, ⟨qa, qb, qc⟩, q3, q4⟩ := q
  cases h
  rw [hn] at hq
  obtain ⟨a1, a2, a3, a4⟩ := prodBProveLoop_len n hq
  obtain ⟨b1, b2, b3⟩ := a3 h1
  refine ⟨⟨a1, fun i lp hi => ?_, b1, b2, b3⟩, by simpa using a4⟩
  have := a2 i lp hi
  simpa using this

theorem layersLoop_len : ∀ (n : Nat) {l r : Dense F} {res : List (Dense F × Dense F)},
    layersLoop n l r = .ok res → res.length = n + 1
  | 0, l, r, res, h => by
    unfold layersLoop at h
    cases h; rfl
  | n + 1, l, r, res, h => by
    unfold layersLoop at h
    obtain ⟨_, -, h⟩ := bind_ok h
    obtain ⟨w, hw, h⟩ := bind_ok h
    cases h
    simp [layersLoop_len n hw]

theorem productCircuit_len {p : Dense F} {c : ProductCircuit F} (h : ProductCircuit.new p = .ok c) :
    c.left.length = log2ceil p.len ∧ 1 ≤ log2ceil p.len := by
  unfold ProductCircuit.new at h
  obtain ⟨n, hn, h⟩ := bind_ok h
  obtain ⟨_, -, h⟩ := bind_ok h
  obtain ⟨_, h1, h⟩ := bind_ok h
  obtain ⟨ls, hl, h⟩ := bind_ok h
  cases h
  have h1 := check_ok h1
  have := layersLoop_len _ hl
  rw [← log2_ok hn]
  exact ⟨by simp [this]; omega, h1⟩

theorem denseNew_len {Z : List F} {d : Dense F} (h : Dense.new Z = .ok d) : d.len = Z.length := by
  unfold Dense.new at h
  obtain ⟨_, -, h⟩ := bind_ok h
  cases h; rfl

theorem mapM_head {α β : Type} {f : α → Out β} {x : α} {xs : List α} {ys : List β}
    (h : (x :: xs).mapM f = .ok ys) : ∃ y zs, f x = .ok y ∧ ys = y :: zs := by
  rw [List.mapM_cons] at h
  obtain ⟨y, hy, h⟩ := bind_ok h
  obtain ⟨zs, -, h⟩ := bind_ok h
  cases h
  exact ⟨y, zs, hy, rfl⟩

/-- The circuits of one memory: the first circuit for reads has one layer for each bit of the number
of operations, the circuit for the initial cells one for each bit of the number of cells. -/
theorem layersNew_len {rh g : F} {table : List F} {t : AddrTs F} {derefs : List (Dense F)}
    {l : ProdLayer F} {n m : Nat} {a0 : Dense F} {as : List (Dense F)} (ht : table.length = 2 ^ m)
    (ha : t.addr = a0 :: as) (ha0 : a0.len = 2 ^ n) (h : layersNew rh g table t derefs = .ok l) :
    (l.init.left.length = m ∧ 1 ≤ m) ∧ (∃ c0 cs, l.read = c0 :: cs ∧ c0.left.length = n ∧ 1 ≤ n) ∧
      l.read.length = t.addr.length ∧ l.write.length = t.addr.length := by
  unfold layersNew at h
  simp only at h
  obtain ⟨q, hq, h⟩ := bind_ok h
  obtain ⟨pi, hpi, h⟩ := bind_ok h
  obtain ⟨pr, hpr, h⟩ := bind_ok h
  obtain ⟨pw, hpw, h⟩ := bind_ok h
  obtain ⟨pa, hpa, h⟩ := bind_ok h
  cases h
  unfold buildHashLayer at hq
  obtain ⟨init, hi, hq⟩ := bind_ok hq
  obtain ⟨_, -, hq⟩ := bind_ok hq
  obtain ⟨_, -, hq⟩ := bind_ok hq
  obtain ⟨rws, hrw, hq⟩ := bind_ok hq
  cases hq
  have e1 := productCircuit_len hpi
  rw [denseNew_len hi, List.length_map, List.length_range, ht] at e1
  have cl : ∀ x, log2ceil (2 ^ x) = x := fun x => Nat.clog_pow 2 _ (by norm_num)
  rw [cl] at e1
  have lr := mapM_length hrw
  have lp := mapM_length hpr
  have lw := mapM_length hpw
  rw [List.length_map, lr, List.length_range] at lp lw
  refine ⟨e1, ?_, lp, lw⟩
  rw [ha, List.length_cons, List.range_succ_eq_map] at hrw
  obtain ⟨y, zs, hy, rfl⟩ := mapM_head hrw
  rw [List.map_cons] at hpr
  obtain ⟨c0, cs, hc0, rfl⟩ := mapM_head hpr
  refine ⟨c0, cs, rfl, ?_⟩
  obtain ⟨a, h1, hy⟩ := bind_ok hy
  obtain ⟨_, -, hy⟩ := bind_ok hy
  obtain ⟨_, -, hy⟩ := bind_ok hy
  have : a = a0 := by
    have : idx (a0 :: as) 0 = .ok a0 := rfl
    rw [this] at h1
    cases h1; rfl
  rw [this] at hy
  unfold hashOps at hy
  obtain ⟨_, -, hy⟩ := bind_ok hy
  obtain ⟨_, -, hy⟩ := bind_ok hy
  obtain ⟨_, -, hy⟩ := bind_ok hy
  obtain ⟨rd, hrd, hy⟩ := bind_ok hy
  obtain ⟨_, -, hy⟩ := bind_ok hy
  cases hy
  have := productCircuit_len hc0
  rwa [denseNew_len hrd, List.length_map, List.length_range, ha0, cl] at this

theorem dotpLoop_len : ∀ {ds : List (Dense F × Dense F × Dense F)} {es : List F} {tr : Tr F P}
    {res : List (DotProductCircuit F × DotProductCircuit F) × List (F × F) × Tr F P},
    dotpLoop ds es tr = .ok res → res.2.1.length = res.1.length
  | [], _, tr, res, h => by
    unfold dotpLoop at h
    cases h; rfl
  | _ :: _, [], tr, res, h => by
    unfold dotpLoop at h
    cases h; rfl
  | d :: ds, e :: es, tr, res, h => by
    unfold dotpLoop at h
    simp only at h
    obtain ⟨_, -, h⟩ := bind_ok h
    obtain ⟨_, -, h⟩ := bind_ok h
    obtain ⟨_, -, h⟩ := bind_ok h
    obtain ⟨_, -, h⟩ := bind_ok h
    obtain ⟨_, -, h⟩ := bind_ok h
    obtain ⟨w, hw, h⟩ := bind_ok h
    cases h
    simp [dotpLoop_len hw]

theorem layerEvals_len {l : ProdLayer F} {e : MemEvals F} (h : l.evals = .ok e) :
    e.read.length = l.read.length ∧ e.write.length = l.write.length := by
  unfold ProdLayer.evals at h
  obtain ⟨_, -, h⟩ := bind_ok h
  obtain ⟨_, -, h⟩ := bind_ok h
  obtain ⟨_, a1, h⟩ := bind_ok h
  obtain ⟨_, a2, h⟩ := bind_ok h
  obtain ⟨_, -, h⟩ := bind_ok h
  cases h
  exact ⟨mapM_length a1, mapM_length a2⟩

theorem flatMap_pair_len {α β : Type} (f g : α → β) : ∀ l : List α,
    (l.flatMap fun c => [f c, g c]).length = 2 * l.length
  | [] => rfl
  | a :: l => by
    rw [List.flatMap_cons, List.length_append, flatMap_pair_len f g l]
    simp only [List.length_cons, List.length_nil]
    omega

/-- Sizes of the product layer proof. -/
theorem prodLayerProve_len {E : Env F G P} {row col : ProdLayer F} {val : List (Dense F)} {d : Derefs F}
    {eval : List F} {tr : Tr F P} {m n : Nat} (hi : row.init.left.length = m) (hm : 1 ≤ m)
    {c0 : ProductCircuit F} {cs : List (ProductCircuit F)} (hr : row.read = c0 :: cs)
    (hc0 : c0.left.length = n) (hn : 1 ≤ n) {res : ProdLayerProof F × List F × List F × Tr F P}
    (h : prodLayerProve E row col val d eval tr = .ok res) :
    (res.1.row.read.length = 3 ∧ res.1.row.write.length = 3 ∧ res.1.col.read.length = 3 ∧
      res.1.col.write.length = 3) ∧ (res.1.dotpL.length = 3 ∧ res.1.dotpR.length = 3) ∧
      res.1.mem.Sizes m 4 0 ∧ res.1.ops.Sizes n 12 6 ∧ res.2.1.length = m ∧ res.2.2.1.length = n := by
  unfold prodLayerProve at h
  simp only at h
  obtain ⟨er, her, h⟩ := bind_ok h
  obtain ⟨ec, hec, h⟩ := bind_ok h
  obtain ⟨_, -, h⟩ := bind_ok h
  obtain ⟨_, -, h⟩ := bind_ok h
  obtain ⟨_, -, h⟩ := bind_ok h
  obtain ⟨dc, hdc, h⟩ := bind_ok h
  obtain ⟨_, l1, h⟩ := bind_ok h
  obtain ⟨_, l2, h⟩ := bind_ok h
  obtain ⟨po, hpo, h⟩ := bind_ok h
  obtain ⟨pm, hpm, h⟩ := bind_ok h
  cases h
  have l1 := check_ok l1
  obtain ⟨l2, l3, l4, l5⟩ := check_ok l2
  obtain ⟨r1, r2⟩ := layerEvals_len her
  obtain ⟨r3, r4⟩ := layerEvals_len hec
  have dl := dotpLoop_len hdc
  obtain ⟨s1, s2⟩ := prodBProve_len (c0 := c0) (by rw [hr]; rfl) hc0 hn hpo
  obtain ⟨t1, t2⟩ := prodBProve_len (c0 := row.init) rfl hi hm hpm
  rw [flatMap_pair_len, l5, List.length_append, List.length_append, List.length_append, l1, l2, l3, l4] at s1
  exact ⟨⟨r1.trans l1, r2.trans l2, r3.trans l3, r4.trans l4⟩, ⟨by rw [List.length_map, dl, l5],
    by rw [List.length_map, dl, l5]⟩, t1, s1, t2, s2⟩

theorem mapM_forall {α β : Type} {f : α → Out β} {Q : β → Prop} : ∀ {xs : List α} {ys : List β},
    (∀ x ∈ xs, ∀ y, f x = .ok y → Q y) → xs.mapM f = .ok ys → ∀ y ∈ ys, Q y
  | [], ys, _, h => by
    rw [List.mapM_nil] at h
    cases h
    simp
  | x :: xs, ys, hf, h => by
    rw [List.mapM_cons] at h
    obtain ⟨y, hy, h⟩ := bind_ok h
    obtain ⟨zs, hz, h⟩ := bind_ok h
    cases h
    intro z hz'
    rcases List.mem_cons.mp hz' with rfl | hz'
    · exact hf x (by simp) _ hy
    · exact mapM_forall (fun a ha => hf a (by simp [ha])) hz z hz'

/-- The looked-up values: one table for each instance, as long as the list of addresses. -/
theorem deref_len {t : AddrTs F} {mem : List F} {ds : List (Dense F)} {n : Nat}
    (ht : ∀ o ∈ t.addrU, o.length = n) (h : t.deref mem = .ok ds) :
    ds.length = t.addrU.length ∧ ∀ d ∈ ds, d.Z.length = n := by
  refine ⟨mapM_length h, mapM_forall ?_ h⟩
  intro o ho y hy
  obtain ⟨v, hv, hy⟩ := bind_ok hy
  unfold Dense.new at hy
  obtain ⟨_, -, hy⟩ := bind_ok hy
  cases hy
  exact (mapM_length hv).trans (ht o ho)

/-- The commitment to the looked-up values. -/
theorem derefs_len {E : Env F G P} {D : MultiDense F} {mx my : List F} {ds : Derefs F} {n : Nat}
    (hr : ∀ o ∈ D.row.addrU, o.length = 2 ^ n) (hc : ∀ o ∈ D.col.addrU, o.length = 2 ^ n)
    (lr : D.row.addrU.length = 3) (lc : D.col.addrU.length = 3) (h : D.deref mx my = .ok ds)
    {gens : DotGens G} {C : List P} (hC : ds.commit E gens = .ok C) :
    C.length = 2 ^ ((n + 3) / 2) ∧ ds.row.length = 3 ∧ ds.col.length = 3 := by
  unfold MultiDense.deref at h
  obtain ⟨r, h1, h⟩ := bind_ok h
  obtain ⟨c, h2, h⟩ := bind_ok h
  unfold Derefs.new at h
  obtain ⟨_, -, h⟩ := bind_ok h
  obtain ⟨comb, h3, h⟩ := bind_ok h
  cases h
  obtain ⟨a1, a2⟩ := deref_len hr h1
  obtain ⟨b1, b2⟩ := deref_len hc h2
  rw [lr] at a1
  rw [lc] at b1
  refine ⟨?_, a1, b1⟩
  have hlen := mergeT_length (tabs := (r ++ c).map (·.Z)) (n := n) (k := 3) (by
    intro h0
    have := congrArg List.length h0
    rw [List.length_map, List.length_append, a1, b1] at this
    cases this) (by
    intro t ht
    obtain ⟨d, hd, rfl⟩ := List.mem_map.mp ht
    rcases List.mem_append.mp hd with hd | hd
    · exact a2 d hd
    · exact b2 d hd) (by
    rw [List.length_map, List.length_append, a1, b1]
    decide)
  have hnv : comb.numVars = 3 + n := by
    unfold Dense.merge at h3
    simp only at h3
    unfold Dense.new at h3
    obtain ⟨q, hq, h3⟩ := bind_ok h3
    cases h3
    unfold mergeT at hlen
    have := log2_ok hq
    rw [hlen] at this
    exact this.trans (Nat.clog_pow 2 _ (by norm_num))
  unfold Derefs.commit at hC
  simp only at hC
  obtain ⟨q, hq, hC⟩ := bind_ok hC
  cases hC
  unfold Dense.commit at hq
  simp only at hq
  obtain ⟨_, -, hq⟩ := bind_ok hq
  obtain ⟨_, -, hq⟩ := bind_ok hq
  obtain ⟨C', hX, hq⟩ := bind_ok hq
  cases hq
  unfold Dense.commitInner at hX
  simp only at hX
  obtain ⟨_, -, hX⟩ := bind_ok hX
  obtain ⟨_, -, hX⟩ := bind_ok hX
  have := mapM_length hX
  simp only
  rw [this, List.length_zip, rowsOf_length]
  simp [factoredLens, hnv, Nat.add_comm]

theorem combineEvals_len {E : Env F G P} {l : String} {evals : List F} {tr : Tr F P}
    {res : List F × F × Tr F P} (h : combineEvals E l evals tr = .ok res) :
    res.1.length = Nat.clog 2 evals.length := by
  unfold combineEvals at h
  simp only at h
  obtain ⟨n, hn, h⟩ := bind_ok h
  obtain ⟨_, -, h⟩ := bind_ok h
  obtain ⟨_, -, h⟩ := bind_ok h
  obtain ⟨_, -, h⟩ := bind_ok h
  obtain ⟨_, -, h⟩ := bind_ok h
  cases h
  rw [← show n = Nat.clog 2 evals.length from log2_ok hn]
  exact challengeVec_len

theorem padPow2_clog (v : List F) : Nat.clog 2 (padPow2 v).length = Nat.clog 2 v.length := by
  have : (padPow2 v).length = 2 ^ Nat.clog 2 v.length := by
    have := le_nextPow2 v.length
    unfold padPow2
    rw [List.length_append, List.length_replicate]
    unfold nextPow2 at this ⊢
    omega
  rw [this]
  exact Nat.clog_pow 2 _ (by norm_num)

theorem hashHelper_len {rm ro : List F} {t : AddrTs F} {e : AddrEvals F} (h : hashLayerHelper rm ro t = .ok e) :
    e.addr.length = t.addr.length ∧ e.readTs.length = t.readTs.length := by
  unfold hashLayerHelper at h
  obtain ⟨_, a1, h⟩ := bind_ok h
  obtain ⟨_, a2, h⟩ := bind_ok h
  obtain ⟨_, -, h⟩ := bind_ok h
  cases h
  exact ⟨mapM_length a1, mapM_length a2⟩

/-- Sizes of the hash layer proof. -/
theorem hashLayerProve_len {E : Env F G P} {rm ro : List F} {d : MultiDense F} {ds : Derefs F}
    {gens : SparseGens G} {tr : Tr F P} {tape : Tape F} {res : HashLayerProof F P × Tr F P × Tape F}
    (hdr : ds.row.length = 3) (hdc : ds.col.length = 3) (h1 : d.row.addr.length = 3)
    (h2 : d.row.readTs.length = 3) (h3 : d.col.addr.length = 3) (h4 : d.col.readTs.length = 3)
    (h5 : d.val.length = 3) (h : hashLayerProve E rm ro d ds gens tr tape = .ok res) :
    (res.1.row.addr.length = 3 ∧ res.1.row.readTs.length = 3 ∧ res.1.col.addr.length = 3 ∧
      res.1.col.readTs.length = 3 ∧ res.1.val.length = 3 ∧ res.1.derefRow.length = 3 ∧
      res.1.derefCol.length = 3) ∧
    (res.1.ops.bullet.L.length = (ro.length + 4) - (ro.length + 4) / 2 ∧
      res.1.ops.bullet.R.length = (ro.length + 4) - (ro.length + 4) / 2) ∧
    (res.1.mem.bullet.L.length = (rm.length + 1) - (rm.length + 1) / 2 ∧
      res.1.mem.bullet.R.length = (rm.length + 1) - (rm.length + 1) / 2) ∧
    (res.1.derefs.bullet.L.length = (ro.length + 3) - (ro.length + 3) / 2 ∧
      res.1.derefs.bullet.R.length = (ro.length + 3) - (ro.length + 3) / 2) := by
  unfold hashLayerProve at h
  simp only at h
  obtain ⟨er, her, h⟩ := bind_ok h
  obtain ⟨ec, hec, h⟩ := bind_ok h
  obtain ⟨q5, s5, h⟩ := bind_ok h
  obtain ⟨q6, s6, h⟩ := bind_ok h
  obtain ⟨q7, s7, h⟩ := bind_ok h
  obtain ⟨q8, s8, h⟩ := bind_ok h
  obtain ⟨c1, d1, h⟩ := bind_ok h
  obtain ⟨q9, s9, h⟩ := bind_ok h
  obtain ⟨c2, d2, h⟩ := bind_ok h
  obtain ⟨q10, s10, h⟩ := bind_ok h
  cases h
  have lr := (mapM_length her).trans hdr
  have lc := (mapM_length hec).trans hdc
  obtain ⟨r1, r2⟩ := hashHelper_len s6
  obtain ⟨r3, r4⟩ := hashHelper_len s7
  have lv := (mapM_length s8).trans h5
  rw [h1] at r1
  rw [h2] at r2
  rw [h3] at r3
  rw [h4] at r4
  unfold derefsProve at s5
  simp only at s5
  obtain ⟨_, -, s5⟩ := bind_ok s5
  obtain ⟨_, -, s5⟩ := bind_ok s5
  obtain ⟨c3, d3, s5⟩ := bind_ok s5
  obtain ⟨q11, s11, s5⟩ := bind_ok s5
  cases s5
  have e1 := combineEvals_len d1
  have e2 := combineEvals_len d2
  have e3 := combineEvals_len d3
  unfold evalsOps at e1
  rw [padPow2_clog] at e1 e3
  simp only [List.length_append, r1, r2, r3, r4, lv, lr, lc] at e1 e3
  rw [show Nat.clog 2 (3 + 3 + 3 + 3 + 3) = 4 by decide] at e1
  rw [show Nat.clog 2 (3 + 3) = 3 by decide] at e3
  rw [show Nat.clog 2 [q6.auditTs, q7.auditTs].length = 1 by
    simp only [List.length_cons, List.length_nil]; decide] at e2
  have o1 := polyEvalProve_len s9
  have o2 := polyEvalProve_shape s9
  have m1 := polyEvalProve_len s10
  have m2 := polyEvalProve_shape s10
  have t1 := polyEvalProve_len s11
  have t2 := polyEvalProve_shape s11
  rw [List.length_append, e1, Nat.add_comm] at o1
  rw [List.length_append, e2, Nat.add_comm] at m1
  rw [List.length_append, e3, Nat.add_comm] at t1
  exact ⟨⟨r1, r2, r3, r4, lv, lr, lc⟩, ⟨o1, o2 ▸ o1⟩, ⟨m1, m2 ▸ m1⟩, ⟨t1, t2 ▸ t1⟩⟩

end Spartan
