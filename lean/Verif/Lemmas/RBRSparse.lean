import Verif.Lemmas.RBRHash

/-! The sparse evaluation proof, one challenge at a time. -/

set_option linter.unusedSectionVars false

namespace Spartan
open Spec
variable {F G P M : Type} [Field F] [AddCommGroup G] [Module F G] [AddCommGroup M] [Module F M]
  [DecidableEq F] [DecidableEq P] [DecidableEq G]

/-- The committed tables: addresses, read timestamps, values, final timestamps. -/
structure SpTabs (F : Type) where
  m : Nat
  n : Nat
  ro : List (List Nat)
  co : List (List Nat)
  rt : List (List F)
  ct : List (List F)
  vs : List (List F)
  ru : List F
  cu : List F

/-- Addresses as field elements. -/
def castT (o : List (List Nat)) : List (List F) := o.map fun o => o.map fun (x : Nat) => (x : F)

/-- Looked-up values. -/
def lookT (o : List (List Nat)) (mem : List F) : List (List F) := o.map fun o => o.map fun a => mem.getD a 0

structure SpTabs.WF (t : SpTabs F) : Prop where
  ro : t.ro.length = 3
  co : t.co.length = 3
  rt : t.rt.length = 3
  ct : t.ct.length = 3
  vs : t.vs.length = 3
  rol : ∀ o ∈ t.ro, o.length = 2 ^ t.n
  col : ∀ o ∈ t.co, o.length = 2 ^ t.n
  rob : ∀ o ∈ t.ro, ∀ a ∈ o, a < 2 ^ t.m
  cob : ∀ o ∈ t.co, ∀ a ∈ o, a < 2 ^ t.m
  rtl : ∀ T ∈ t.rt, T.length = 2 ^ t.n
  ctl : ∀ T ∈ t.ct, T.length = 2 ^ t.n
  vsl : ∀ T ∈ t.vs, T.length = 2 ^ t.n
  ru : t.ru.length = 2 ^ t.m
  cu : t.cu.length = 2 ^ t.m

/-- A point with exactly `n` coordinates. -/
def fitP (n : Nat) (l : List F) : List F := (List.range n).map fun i => l.getD i 0

@[simp] theorem fitP_length (n : Nat) (l : List F) : (fitP n l).length = n := by simp [fitP]

theorem fitP_eq {n : Nat} {l : List F} (h : l.length = n) : fitP n l = l := by
  subst h
  apply ext_getD (by simp)
  intro i hi
  have hi : i < l.length := by simpa using hi
  simp [fitP, List.getD_eq_getElem?_getD, hi]

/-- Block `i` of a table. -/
def blk (n : Nat) (T : List F) (i : Nat) : List F := (List.range (2 ^ n)).map fun k => T.getD (i * 2 ^ n + k) 0

@[simp] theorem blk_length (n : Nat) (T : List F) (i : Nat) : (blk n T i).length = 2 ^ n := by simp [blk]

def blks (n : Nat) (T : List F) (l : List Nat) : List (List F) := l.map (blk n T)

theorem blks_flatten {n : Nat} : ∀ (k : Nat) {T : List F}, T.length = k * 2 ^ n →
    (blks n T (List.range k)).flatten = T := by
  intro k T h
  apply ext_getD
  · rw [flatten_length_eq (w := 2 ^ n) _ (by
      intro x hx
      obtain ⟨i, -, rfl⟩ := List.mem_map.1 hx
      simp)]
    simp [blks, h]
  · intro i hi
    rw [flatten_length_eq (w := 2 ^ n) _ (by
      intro x hx
      obtain ⟨i, -, rfl⟩ := List.mem_map.1 hx
      simp)] at hi
    have hi : i < k * 2 ^ n := by simpa [blks] using hi
    have key : ∀ (l : List Nat) (i : Nat), i < l.length * 2 ^ n →
        (blks n T l).flatten.getD i 0 = T.getD (l.getD (i / 2 ^ n) 0 * 2 ^ n + i % 2 ^ n) 0 := by
      intro l
      induction l with
      | nil => intro i hi; simp at hi
      | cons a l ih =>
        intro i hi
        rw [blks, List.map_cons, List.flatten_cons]
        by_cases hlt : i < 2 ^ n
        · rw [List.getD_append _ _ _ _ (by simpa using hlt), Nat.div_eq_of_lt hlt, Nat.mod_eq_of_lt hlt]
          simp [blk, List.getD_eq_getElem?_getD, hlt]
        · have hle : 2 ^ n ≤ i := by omega
          rw [List.getD_append_right _ _ _ _ (by simpa using hle), blk_length]
          have := ih (i - 2 ^ n) (by rw [List.length_cons, Nat.add_mul] at hi; omega)
          rw [blks] at this
          rw [this]
          obtain ⟨j, rfl⟩ : ∃ j, i = j + 2 ^ n := ⟨i - 2 ^ n, by omega⟩
          rw [Nat.add_sub_cancel, Nat.add_mod_right, Nat.add_div_right _ (by positivity)]
          simp
    rw [key _ _ (by simpa using hi)]
    congr 1
    have hq : i / 2 ^ n < k := by rw [Nat.div_lt_iff_lt_mul (by positivity)]; exact hi
    simp only [List.getD_eq_getElem?_getD, List.getElem?_range hq, Option.getD_some]
    rw [mul_comm]; exact Nat.div_add_mod i (2 ^ n)

variable {nO nM nD : Nat}

/-- The table committed in the first message. -/
def derT (t : SpTabs F) (xD : M →ₗ[F] (Fin nD → F)) (ms : List (Msg F M)) : List F :=
  extractVars xD (2 ^ ((3 + t.n) / 2)) (pts ms)

/-- Row look-ups claimed by the first message. -/
def derR (t : SpTabs F) (xD : M →ₗ[F] (Fin nD → F)) (ms : List (Msg F M)) : List (List F) :=
  blks t.n (derT t xD ms) [0, 1, 2]
/-- Column look-ups claimed by the first message. -/
def derC (t : SpTabs F) (xD : M →ₗ[F] (Fin nD → F)) (ms : List (Msg F M)) : List (List F) :=
  blks t.n (derT t xD ms) [3, 4, 5]
/-- The unused part. -/
def derZ (t : SpTabs F) (xD : M →ₗ[F] (Fin nD → F)) (ms : List (Msg F M)) : List (List F) :=
  blks t.n (derT t xD ms) [6, 7]

/-- Unfavourable challenges of the evaluation proof at `rx`, `ry`. -/
def sparseBad (t : SpTabs F) (vO : M →ₗ[F] F) (xO : M →ₗ[F] (Fin nO → F)) (vM : M →ₗ[F] F)
    (xM : M →ₗ[F] (Fin nM → F)) (vD : M →ₗ[F] F) (xD : M →ₗ[F] (Fin nD → F)) (rx ry : List F) : Bads F M :=
  seqB 1 (oneB fun ms =>
    hashBad1 (wSide (eqEvals rx) (castT t.ro) (derR t xD ms) t.rt)
        (rSide (eqEvals rx) (castT t.ro) (derR t xD ms) t.rt t.ru) ∪
      hashBad1 (wSide (eqEvals ry) (castT t.co) (derC t xD ms) t.ct)
        (rSide (eqEvals ry) (castT t.co) (derC t xD ms) t.ct t.cu)) fun h1 =>
  let ms := (h1.headD ([], 0)).1
  let rh := (chs h1).getD 0 0
  let dr := derR t xD ms
  let dc := derC t xD ms
  seqB 1 (oneB fun _ =>
    hashBad2 (wSide (eqEvals rx) (castT t.ro) dr t.rt) (rSide (eqEvals rx) (castT t.ro) dr t.rt t.ru) rh ∪
      hashBad2 (wSide (eqEvals ry) (castT t.co) dc t.ct) (rSide (eqEvals ry) (castT t.co) dc t.ct t.cu) rh)
    fun h2 =>
  let g := (chs h2).getD 0 0
  seqB (prodBRounds t.n 12 6 t.n) (headB fun m0 => prodBBad t.n
      (rwTabs rh g 0 (castT t.ro) dr t.rt ++ rwTabs rh g 1 (castT t.ro) dr t.rt ++
        rwTabs rh g 0 (castT t.co) dc t.ct ++ rwTabs rh g 1 (castT t.co) dc t.ct)
      ((List.zip dr (List.zip dc t.vs)).flatMap fun d => [loT t.n d, hiT t.n d])
      (dotCl (scs m0)) t.n (opsCl (scs m0)) []) fun h3 =>
  let rO := fitP t.n (prodPt t.n (chs h3))
  seqB (prodBRounds t.m 4 0 t.m) (prodBBad t.m
      [cellT rh g (eqEvals rx) (List.replicate (2 ^ t.m) 0), cellT rh g (eqEvals rx) t.ru,
        cellT rh g (eqEvals ry) (List.replicate (2 ^ t.m) 0), cellT rh g (eqEvals ry) t.cu] [] [] t.m
      (memCl (scs (h3.headD ([], 0)).1)) []) fun h4 =>
  let rM := fitP t.m (prodPt t.m (chs h4))
  seqB (openRounds 3 (3 + t.n)) (openBad 3 ((dr ++ dc ++ derZ t xD ms).map fun T => mle T rO) vD xD rO) fun _ =>
  seqB (openRounds 4 (4 + t.n))
    (openBad 4 (padPow2 ((castT t.ro ++ t.rt ++ castT t.co ++ t.ct ++ t.vs).map fun T => mle T rO)) vO xO rO)
    fun _ => openBad 1 [mle t.ru rM, mle t.cu rM] vM xM rM

/-- Number of rounds. -/
def sparseRounds (m n : Nat) : Nat :=
  1 + (1 + (prodBRounds n 12 6 n + (prodBRounds m 4 0 m +
    (openRounds 3 (3 + n) + (openRounds 4 (4 + n) + openRounds 1 (1 + m))))))

theorem castT_flat {n : Nat} {o : List (List Nat)} (hl : o.length = 3) (h : ∀ x ∈ o, x.length = 2 ^ n) :
    (castT (F := F) o).flatten.length = 3 * 2 ^ n := by
  rw [flatten_length_eq (w := 2 ^ n) _ (by
    intro x hx
    obtain ⟨y, hy, rfl⟩ := List.mem_map.1 hx
    rw [List.length_map]; exact h y hy)]
  simp [castT, hl]

theorem sparseBad_small {t : SpTabs F} (ht : t.WF) (vO : M →ₗ[F] F) (xO : M →ₗ[F] (Fin nO → F))
    (vM : M →ₗ[F] F) (xM : M →ₗ[F] (Fin nM → F)) (vD : M →ₗ[F] F) (xD : M →ₗ[F] (Fin nD → F)) {rx ry : List F}
    (hrx : rx.length = t.m) (hry : ry.length = t.m) (nOe : nO = 2 ^ ((4 + t.n) - (4 + t.n) / 2))
    (nMe : nM = 2 ^ ((1 + t.m) - (1 + t.m) / 2)) (nDe : nD = 2 ^ ((3 + t.n) - (3 + t.n) / 2)) :
    Small (4 * (3 * 2 ^ t.n + 2 ^ t.m)) (sparseBad t vO xO vM xM vD xD rx ry) := by
  have p1 : 1 ≤ 2 ^ t.n := Nat.one_le_two_pow
  have p2 : 1 ≤ 2 ^ t.m := Nat.one_le_two_pow
  have fl : ∀ {L : List (List F)}, L.length = 3 → (∀ T ∈ L, T.length = 2 ^ t.n) → L.flatten.length = 3 * 2 ^ t.n := by
    intro L hl h; rw [flatten_length_eq _ h, hl]
  have lx : (eqEvals rx).length = 2 ^ t.m := by rw [(eqEvals_correct rx).1, hrx]
  have ly : (eqEvals ry).length = 2 ^ t.m := by rw [(eqEvals_correct ry).1, hry]
  have cro := castT_flat (F := F) ht.ro ht.rol
  have cco := castT_flat (F := F) ht.co ht.col
  have frt := fl ht.rt ht.rtl
  have fct := fl ht.ct ht.ctl
  have fdr : ∀ ms, (derR t xD ms).flatten.length = 3 * 2 ^ t.n := fun ms => fl rfl (by simp [derR, blks])
  have fdc : ∀ ms, (derC t xD ms).flatten.length = 3 * 2 ^ t.n := fun ms => fl rfl (by simp [derC, blks])
  have wr : ∀ ms, (wSide (eqEvals rx) (castT t.ro) (derR t xD ms) t.rt).card = 3 * 2 ^ t.n + 2 ^ t.m := by
    intro ms; rw [wSide_card (by rw [fdr, cro]) (by rw [frt, cro]), cro, lx]
  have rr : ∀ ms, (rSide (eqEvals rx) (castT t.ro) (derR t xD ms) t.rt t.ru).card = 3 * 2 ^ t.n + 2 ^ t.m := by
    intro ms; rw [rSide_card (by rw [fdr, cro]) (by rw [frt, cro]), cro, lx]
  have wc : ∀ ms, (wSide (eqEvals ry) (castT t.co) (derC t xD ms) t.ct).card = 3 * 2 ^ t.n + 2 ^ t.m := by
    intro ms; rw [wSide_card (by rw [fdc, cco]) (by rw [fct, cco]), cco, ly]
  have rc : ∀ ms, (rSide (eqEvals ry) (castT t.co) (derC t xD ms) t.ct t.cu).card = 3 * 2 ^ t.n + 2 ^ t.m := by
    intro ms; rw [rSide_card (by rw [fdc, cco]) (by rw [fct, cco]), cco, ly]
  unfold sparseBad
  refine Small.seq (fun hist ms => ?_) fun h1 => Small.seq (fun hist ms => ?_) fun h2 =>
    Small.seq (headB_small fun m0 => (prodBBad_small _ _ _ _ _ _ _).mono (by omega)) fun h3 =>
    Small.seq ((prodBBad_small _ _ _ _ _ _ _).mono (by omega)) fun h4 =>
    Small.seq ((openBad_small _ _ _ (by rw [fitP_length]; exact nDe)).mono (by omega)) fun h5 =>
    Small.seq ((openBad_small _ _ _ (by rw [fitP_length]; exact nOe)).mono (by omega)) fun h6 =>
      (openBad_small _ _ _ (by rw [fitP_length]; exact nMe)).mono (by omega)
  · exact ((hashBad1_small (wr ms) (rr ms)).union (hashBad1_small (wc ms) (rc ms))).mono (by omega) le_rfl
  · exact ((hashBad2_small (wr _) (rr _) _).union (hashBad2_small (wc _) (rc _) _)).mono (by omega) le_rfl

/-- `SparseMatPolyEvalProof::verify`. -/
theorem sparse_rbr {E : Env F G P} (hE : E.Lawful) {rep : P → M} {π : M →ₗ[F] G} (hrep : IsRep E rep π)
    {t : SpTabs F} (ht : t.WF) (hm : 1 ≤ t.m)
    (hchar : ∀ k : Nat, 0 < k → k ≤ 3 * 2 ^ t.n + 2 ^ t.m → (k : F) ≠ 0) {b : EvalBasis M}
    {vO : M →ₗ[F] F} {xO : M →ₗ[F] (Fin nO → F)} {vM : M →ₗ[F] F}
    {xM : M →ₗ[F] (Fin nM → F)} {vD : M →ₗ[F] F} {xD : M →ₗ[F] (Fin nD → F)}
    (hO : ReadsPc vO xO b.ops.g0 b.ops.h b.ops.G) (hM : ReadsPc vM xM b.mem.g0 b.mem.h b.mem.G)
    (hD : ReadsPc vD xD b.derefs.g0 b.derefs.h b.derefs.G)
    (nOe : nO = 2 ^ ((4 + t.n) - (4 + t.n) / 2)) (nMe : nM = 2 ^ ((1 + t.m) - (1 + t.m) / 2))
    (nDe : nD = 2 ^ ((3 + t.n) - (3 + t.n) / 2)) {gens : SparseGens G}
    (gO : gens.ops.WF ((4 + t.n) - (4 + t.n) / 2) (π b.ops.g0) (π b.ops.h))
    (gM : gens.mem.WF ((1 + t.m) - (1 + t.m) / 2) (π b.mem.g0) (π b.mem.h))
    (gD : gens.derefs.WF ((3 + t.n) - (3 + t.n) / 2) (π b.derefs.g0) (π b.derefs.h))
    (GO : gens.ops.gensn.G = b.ops.G.map π) (GM : gens.mem.gensn.G = b.mem.G.map π)
    (GD : gens.derefs.gensn.G = b.derefs.G.map π) {pf : SparseEvalProof F P}
    (s1 : pf.net.hash.ops.bullet.L.length = pf.net.hash.ops.bullet.R.length)
    (s2 : pf.net.hash.mem.bullet.L.length = pf.net.hash.mem.bullet.R.length)
    (s3 : pf.net.hash.derefs.bullet.L.length = pf.net.hash.derefs.bullet.R.length)
    (s4 : pf.net.hash.row.addr.length = 3 ∧ pf.net.hash.row.readTs.length = 3 ∧
      pf.net.hash.col.addr.length = 3 ∧ pf.net.hash.col.readTs.length = 3 ∧ pf.net.hash.val.length = 3)
    {comm : SparseComm P} (hno : comm.numOps = 2 ^ t.n)
    (hTO : extractVars xO (2 ^ ((4 + t.n) / 2)) (comm.ops.map rep) =
      mergeT (castT t.ro ++ t.rt ++ castT t.co ++ t.ct ++ t.vs))
    (hTM : extractVars xM (2 ^ ((1 + t.m) / 2)) (comm.mem.map rep) = t.ru ++ t.cu)
    {rx ry rxe rye evals : List F} (heq : equalize rx ry = (rxe, rye)) (hrx : rxe.length = t.m)
    (hry : rye.length = t.m) (hev : evals.length = 3) {tr tr' : Tr F P}
    (hok : sparseVerify E pf comm rx ry evals gens tr = .ok tr') {es : List M}
    (hes : sparseRels E rep π gens b pf comm rx ry evals tr = .ok es) (hF : Free π es)
    {cur : List (Msg F M)} (hc : pts cur = []) :
    ∃ Rs, Seg E rep tr cur Rs tr' [] ∧ Rs.length = sparseRounds t.m t.n ∧
      (¬ Hit (sparseBad t vO xO vM xM vD xD rxe rye) Rs →
        evals = (List.zip (lookT t.ro (eqEvals rxe)) (List.zip (lookT t.co (eqEvals rye)) t.vs)).map (triSum t.n)) := by
  unfold sparseVerify at hok
  unfold sparseRels at hes
  rw [heq] at hok hes
  simp only at hok hes
  obtain ⟨_, hnc, hok⟩ := bind_ok hok
  obtain ⟨tr0, htr0⟩ : ∃ t0, t0 = (tr.protocol "Sparse polynomial evaluation proof").derefsComm
    "comm_poly_row_col_ops_val" pf.derefs := ⟨_, rfl⟩
  rw [← htr0] at hok hes
  have S0 : ∃ c0, Seg E rep tr cur [] tr0 c0 ∧ pts c0 = pf.derefs.map rep := by
    rw [htr0]
    unfold Tr.derefsComm Tr.polyComm
    exact ⟨_, (Seg.bytes (Seg.pointList _ _ ((((Seg.refl E rep tr cur).protocol _).bytes _ _).bytes _ _)) _ _).bytes
      _ _, by simp [hc]⟩
  obtain ⟨c0, S0, hp0⟩ := S0
  obtain ⟨rh, hrh⟩ : ∃ a, a = E.hash (tr0 ++ [.chal "challenge_r_hash"]) := ⟨_, rfl⟩
  obtain ⟨g, hg⟩ : ∃ a, a = E.hash (tr0 ++ [.chal "challenge_r_hash"] ++ [.chal "challenge_r_hash"]) := ⟨_, rfl⟩
  simp only [Env.challengeVec, Env.challenge, List.getD_cons_zero, List.getD_cons_succ] at hok hes
  rw [← hrh, ← hg] at hok
  have S1 := ((S0.chal "challenge_r_hash").chal "challenge_r_hash").protocol "Sparse polynomial evaluation proof"
  rw [← hrh, ← hg, List.nil_append, List.nil_append] at S1
  unfold netVerify at hok
  simp only at hok
  rw [hev, check_true (by rw [hrx, hry]), ok_bind] at hok
  rw [hrx, hno, nextPow2_pow] at hok hes
  obtain ⟨⟨cMem, rM, cOps, cDot, rO, tr1⟩, hpl, hok⟩ := bind_ok hok
  rw [hpl, ok_bind] at hes
  simp only at hok hes
  obtain ⟨_, q1, hok⟩ := bind_ok hok
  obtain ⟨_, q2, hok⟩ := bind_ok hok
  obtain ⟨_, q3, hok⟩ := bind_ok hok
  have q1 := check_ok q1
  have q2 := check_ok q2
  have q3 := check_ok q3
  have hn : 1 ≤ t.n := by
    by_contra h0
    obtain h0 : t.n = 0 := by omega
    unfold prodLayerVerify at hpl
    simp only at hpl
    obtain ⟨_, -, hpl⟩ := bind_ok hpl
    obtain ⟨_, -, hpl⟩ := bind_ok hpl
    obtain ⟨_, -, hpl⟩ := bind_ok hpl
    obtain ⟨⟨cd, t1⟩, -, hpl⟩ := bind_ok hpl
    obtain ⟨⟨cO, cD, randO, t2⟩, h1, hpl⟩ := bind_ok hpl
    obtain ⟨⟨cM, cX, randM, t3⟩, -, hpl⟩ := bind_ok hpl
    rw [pure_ok] at hpl
    simp only [Except.ok.injEq, Prod.mk.injEq] at hpl
    obtain ⟨hl, h1⟩ := prodBVerify_ok h1
    rw [h0, List.length_eq_zero_iff] at hl
    rw [hl] at h1
    simp only [prodBVerifyLoop, Except.ok.injEq, Prod.mk.injEq] at h1
    rw [← hpl.2.2.2.1, ← h1.2.1] at q3
    simp at q3
  obtain ⟨lO, lM, R3, R4, S2, l3, l4, eO, eM, H2⟩ := prodLayer_rbr (rep := rep) hm hn hev hpl
    (cur := [] ++ [.bytes "protocol-name" "Sparse polynomial evaluation proof"]) (by simp)
  obtain ⟨hder, R5, R6, R7, S3, l5, l6, l7, H3⟩ := hash_rbr hE hrep hO hM hD nOe nMe nDe gO gM gD GO GM GD s1 s2 s3 s4
    lM lO q3 hok hes hF []
  refine ⟨[(c0, rh)] ++ ([([], g)] ++ (R3 ++ (R4 ++ (R5 ++ (R6 ++ R7))))), ?_, ?_, fun hH => ?_⟩
  · have := S1.trans (S2.trans S3)
    simpa using this
  · simp only [List.length_append, List.length_singleton, l3, l4, l5, l6, l7]
    rfl
  -- no unfavourable challenge in any part
  unfold sparseBad at hH
  have hA := fun h => hH (Hit.left rfl h)
  have hH := fun h => hH (Hit.right rfl h)
  try simp only at hH
  have hB := fun h => hH (Hit.left rfl h)
  have hH := fun h => hH (Hit.right rfl h)
  try simp only at hH
  have hC := fun h => hH (Hit.left l3 h)
  have hH := fun h => hH (Hit.right l3 h)
  try simp only at hH
  have hDD := fun h => hH (Hit.left l4 h)
  have hH := fun h => hH (Hit.right l4 h)
  try simp only at hH
  have hEE := fun h => hH (Hit.left l5 h)
  have hH := fun h => hH (Hit.right l5 h)
  have hFF := fun h => hH (Hit.left l6 h)
  have hGG := fun h => hH (Hit.right l6 h)
  have e1 : (([(c0, rh)] : List (Round F M)).headD ([], 0)).1 = c0 := rfl
  have e2 : (chs ([(c0, rh)] : List (Round F M))).getD 0 0 = rh := rfl
  have e3 : (chs ([([], g)] : List (Round F M))).getD 0 0 = g := rfl
  simp only [e1, e2, e3, ← eO, ← eM, fitP_eq lO, fitP_eq lM] at hB hC hDD hEE hFF hGG
  have hA : rh ∉ _ := fun h => hA (Hit.one h)
  have hB : g ∉ _ := fun h => hB (Hit.one h)
  rw [Set.mem_union, not_or] at hA hB
  -- the look-ups
  obtain ⟨dr, hdr⟩ : ∃ d, d = derR t xD c0 := ⟨_, rfl⟩
  obtain ⟨dc, hdc⟩ : ∃ d, d = derC t xD c0 := ⟨_, rfl⟩
  obtain ⟨dz, hdz⟩ : ∃ d, d = derZ t xD c0 := ⟨_, rfl⟩
  rw [← hdr, ← hdc] at hA hB hC hEE
  rw [← hdz] at hEE
  have ldr : dr.length = 3 := by rw [hdr]; rfl
  have ldc : dc.length = 3 := by rw [hdc]; rfl
  have ldz : dz.length = 2 := by rw [hdz]; rfl
  have hdT : ∀ T ∈ dr ++ dc ++ dz, T.length = 2 ^ t.n := by
    rw [hdr, hdc, hdz]; simp [derR, derC, derZ, blks]
  have xd : extractVars xD (2 ^ ((3 + t.n) / 2)) (pf.derefs.map rep) = (dr ++ dc ++ dz).flatten := by
    have hl := extractVars_length xD (rows := 2 ^ ((3 + t.n) / 2)) (comm := pf.derefs.map rep)
      (by simpa using hder)
    have := blks_flatten (n := t.n) 8 (T := extractVars xD (2 ^ ((3 + t.n) / 2)) (pf.derefs.map rep)) (by
      rw [hl, nDe, ← pow_add, show (8 : ℕ) = 2 ^ 3 by norm_num, ← pow_add]; congr 1; omega)
    rw [← this, hdr, hdc, hdz, derR, derC, derZ, derT, hp0]
    rfl
  have cT : ∀ {o : List (List Nat)}, (∀ x ∈ o, x.length = 2 ^ t.n) → ∀ T ∈ castT (F := F) o, T.length = 2 ^ t.n := by
    intro o h T hT
    obtain ⟨y, hy, rfl⟩ := List.mem_map.1 hT
    rw [List.length_map]; exact h y hy
  have hoT : ∀ T ∈ castT t.ro ++ t.rt ++ castT t.co ++ t.ct ++ t.vs, T.length = 2 ^ t.n := by
    intro T hT
    simp only [List.mem_append] at hT
    rcases hT with (((h | h) | h) | h) | h
    · exact cT ht.rol T h
    · exact ht.rtl T h
    · exact cT ht.col T h
    · exact ht.ctl T h
    · exact ht.vsl T h
  have lx : (eqEvals rxe).length = 2 ^ t.m := by rw [(eqEvals_correct rxe).1, hrx]
  have ly : (eqEvals rye).length = 2 ^ t.m := by rw [(eqEvals_correct rye).1, hry]
  have lro : (castT (F := F) t.ro).length = 3 := by rw [castT, List.length_map, ht.ro]
  have lco : (castT (F := F) t.co).length = 3 := by rw [castT, List.length_map, ht.co]
  obtain ⟨f1, f2, f3⟩ := H3 dr dc dz (castT t.ro) t.rt (castT t.co) t.ct t.vs t.ru t.cu ldr ldc ldz
    lro ht.rt lco ht.ct ht.vs hdT hoT ht.ru ht.cu xd hTO hTM hEE hFF hGG hrx hry
    (by simp [q2]) (by simp [q2]) (by simp [q2]) (by simp [q2])
  simp only [MemEvals.mk.injEq] at f1 f2
  obtain ⟨a1, a2, a3, a4⟩ := f1
  obtain ⟨b1, b2, b3, b4⟩ := f2
  have rwl : ∀ (s : F) {o : List (List Nat)} {v ts : List (List F)}, o.length = 3 → (∀ x ∈ o, x.length = 2 ^ t.n) →
      (rwTabs rh g s (castT o) v ts).length = 3 ∧ ∀ T ∈ rwTabs rh g s (castT o) v ts, T.length = 2 ^ t.n := by
    intro s o v ts h1 h2
    refine ⟨by simp [rwTabs, castT, h1], fun T hT => ?_⟩
    unfold rwTabs at hT
    obtain ⟨i, hi, rfl⟩ := List.mem_map.1 hT
    rw [opsT_length]
    have hi : i < (castT (F := F) o).length := List.mem_range.1 hi
    rw [List.getD_eq_getElem _ _ hi]
    exact cT h2 _ (List.getElem_mem hi)
  obtain ⟨p1, p2, p3⟩ := H2 (rwTabs rh g 0 (castT t.ro) dr t.rt) (rwTabs rh g 1 (castT t.ro) dr t.rt)
    (rwTabs rh g 0 (castT t.co) dc t.ct) (rwTabs rh g 1 (castT t.co) dc t.ct)
    (cellT rh g (eqEvals rxe) (List.replicate (2 ^ t.m) 0)) (cellT rh g (eqEvals rxe) t.ru)
    (cellT rh g (eqEvals rye) (List.replicate (2 ^ t.m) 0)) (cellT rh g (eqEvals rye) t.cu)
    (List.zip dr (List.zip dc t.vs)) (rwl 0 ht.ro ht.rol).1 (rwl 1 ht.ro ht.rol).1 (rwl 0 ht.co ht.col).1
    (rwl 1 ht.co ht.col).1 (by simp [ldr, ldc, ht.vs]) (by
      intro T hT
      simp only [List.mem_append] at hT
      rcases hT with ((h | h) | h) | h
      · exact (rwl 0 ht.ro ht.rol).2 T h
      · exact (rwl 1 ht.ro ht.rol).2 T h
      · exact (rwl 0 ht.co ht.col).2 T h
      · exact (rwl 1 ht.co ht.col).2 T h)
    (by simp [cellT_length, lx, ly]) (by
      rintro ⟨d1, d2, d3⟩ hd
      have h1 := List.of_mem_zip hd
      have h2 := List.of_mem_zip h1.2
      exact ⟨hdT d1 (by simp [h1.1]), hdT d2 (by simp [h2.1]), ht.vsl d3 h2.2⟩)
    hC hDD (by
      rw [List.map_append, List.map_append, List.map_append, ← a2, ← a3, ← b2, ← b3]
      rw [List.take_append_drop, List.append_assoc, List.take_append_drop, List.take_append_drop]) (by
      apply ext_getD (by simp [q1])
      intro i hi
      rw [q1] at hi
      have : i = 0 ∨ i = 1 ∨ i = 2 ∨ i = 3 := by omega
      rcases this with rfl | rfl | rfl | rfl
      · simpa using a1
      · simpa using a4
      · simpa using b1
      · simpa using b4) f3
  have v1 : dr = lookT t.ro (eqEvals rxe) := mem_sound lx (by rw [ldr, ht.ro]) (by rw [ht.rt, ht.ro]) ht.rol
    (fun T h => hdT T (by simp [h])) ht.rtl ht.rob (by rw [ht.ro]; exact hchar) hA.1 hB.1 p1
  have v2 : dc = lookT t.co (eqEvals rye) := mem_sound ly (by rw [ldc, ht.co]) (by rw [ht.ct, ht.co]) ht.col
    (fun T h => hdT T (by simp [h])) ht.ctl ht.cob (by rw [ht.co]; exact hchar) hA.2 hB.2 p2
  rw [p3, v1, v2]

end Spartan
