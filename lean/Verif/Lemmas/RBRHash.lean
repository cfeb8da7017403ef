import Verif.Lemmas.RBRLayer

/-! The hash layer of the sparse evaluation proof, one challenge at a time. -/

set_option linter.unusedSectionVars false

namespace Spartan
open Spec
variable {F G P M : Type} [Field F] [AddCommGroup G] [Module F G] [AddCommGroup M] [Module F M]
  [DecidableEq F] [DecidableEq P] [DecidableEq G]

theorem mapM_all_ok {α β : Type} {f : α → Out β} : ∀ {l : List α} {r : List β}, l.mapM f = .ok r →
    ∀ a ∈ l, ∃ b, f a = .ok b
  | [], _, _ => by simp
  | a :: l, r, h => by
    rw [List.mapM_cons] at h
    obtain ⟨b, hb, h⟩ := bind_ok h
    obtain ⟨bs, hbs, h⟩ := bind_ok h
    intro x hx
    rcases List.mem_cons.1 hx with rfl | hx
    · exact ⟨b, hb⟩
    · exact mapM_all_ok hbs x hx

/-- Checked reads and writes are the hashes of the opened values. -/
theorem hashOpsCheck_ok {rh g : F} {ops addr ts cr cw : List F} {u : Unit}
    (h : hashOpsCheck rh g ops addr ts cr cw = .ok u) (l : addr.length = 3 ∧ ops.length = 3 ∧ ts.length = 3 ∧
      cr.length = 3 ∧ cw.length = 3) : ∀ i < 3,
      cr.getD i 0 = memHash rh (addr.getD i 0) (ops.getD i 0) (ts.getD i 0) - g ∧
      cw.getD i 0 = memHash rh (addr.getD i 0) (ops.getD i 0) (ts.getD i 0 + 1) - g := by
  obtain ⟨l1, l2, l3, l4, l5⟩ := l
  intro i hi
  unfold hashOpsCheck at h
  obtain ⟨_, h1, h⟩ := bind_ok h
  obtain ⟨_, h2, h⟩ := bind_ok h
  constructor
  · obtain ⟨y, hy⟩ := mapM_all_ok h1 i (by simp [l1, hi])
    rw [idx_ok (by omega) 0, ok_bind, idx_ok (by omega) 0, ok_bind, idx_ok (by omega) 0, ok_bind,
      idx_ok (by omega) 0, ok_bind] at hy
    exact (check_ok hy).symm
  · obtain ⟨y, hy⟩ := mapM_all_ok h2 i (by simp [l1, hi])
    rw [idx_ok (by omega) 0, ok_bind, idx_ok (by omega) 0, ok_bind, idx_ok (by omega) 0, ok_bind,
      idx_ok (by omega) 0, ok_bind] at hy
    exact (check_ok hy).symm

/-- The checks for one memory, with the opened values. -/
theorem verifyHelper_ok {m n : Nat} {rM rO rx u : List F} (hrm : rM.length = m) (hro : rO.length = n)
    (hrx : rx.length = m) {rh g : F} {cl : MemClaims F} {ops : List F} {e : AddrEvals F}
    {ra dr rt : List (List F)} (hl : ra.length = 3 ∧ dr.length = 3 ∧ rt.length = 3)
    (ha : ∀ T ∈ ra, T.length = 2 ^ n) (ht : ∀ T ∈ rt, T.length = 2 ^ n)
    (hcl : cl.read.length = 3 ∧ cl.write.length = 3)
    (e1 : ops = dr.map fun T => mle T rO) (e2 : e.addr = ra.map fun T => mle T rO)
    (e3 : e.readTs = rt.map fun T => mle T rO) (e4 : e.auditTs = mle u rM) {w : Unit}
    (h : hashLayerVerifyHelper rM cl ops e rx rh g = .ok w) :
    cl = ⟨mle (cellT rh g (eqEvals rx) (List.replicate (2 ^ m) 0)) rM,
      (rwTabs rh g 0 ra dr rt).map fun T => mle T rO, (rwTabs rh g 1 ra dr rt).map fun T => mle T rO,
      mle (cellT rh g (eqEvals rx) u) rM⟩ := by
  subst hrm hro
  obtain ⟨l1, l2, l3⟩ := hl
  have hlx : (eqEvals rx).length = 2 ^ rM.length := by rw [(eqEvals_correct rx).1, hrx]
  unfold hashLayerVerifyHelper at h
  rw [identity_evaluate, ok_bind, eqEvaluate_mle _ _ hrx, ok_bind] at h
  obtain ⟨_, h1, h⟩ := bind_ok h
  obtain ⟨_, h2, h⟩ := bind_ok h
  have h1 := check_ok h1
  have h3 := check_ok h
  have h2 := hashOpsCheck_ok h2 ⟨by simp [e2, l1], by simp [e1, l2], by simp [e3, l3], hcl.1, hcl.2⟩
  have key : ∀ s : F, ∀ i < 3, ((rwTabs rh g s ra dr rt).map fun T => mle T rO).getD i 0 =
      memHash rh (e.addr.getD i 0) (ops.getD i 0) (e.readTs.getD i 0 + s) - g := by
    intro s i hi
    obtain ⟨a0, a1, a2, rfl⟩ := List.length_eq_three.1 l1
    obtain ⟨b0, b1, b2, rfl⟩ := List.length_eq_three.1 l2
    obtain ⟨c0, c1, c2, rfl⟩ := List.length_eq_three.1 l3
    rw [e1, e2, e3]
    have k0 := ht c0 (by simp)
    have k1 := ht c1 (by simp)
    have k2 := ht c2 (by simp)
    have h0 := ha a0 (by simp)
    have h1 := ha a1 (by simp)
    have h2 := ha a2 (by simp)
    have hi' : i = 0 ∨ i = 1 ∨ i = 2 := by omega
    rcases hi' with rfl | rfl | rfl <;>
      simp [rwTabs, List.range_succ, mle_opsT, h0, h1, h2, mle_shift, k0, k1, k2]
  have lw : ∀ s : F, (rwTabs rh g s ra dr rt).length = 3 := by intro s; simp [rwTabs, l1]
  obtain ⟨i0, r0, w0, a0⟩ := cl
  simp only at h1 h2 h3 hcl ⊢
  congr 1
  · rw [mle_cellT rh g hlx, mle_replicate_zero]; exact h1.symm
  · apply ext_getD (by rw [List.length_map, lw, hcl.1])
    intro i hi
    rw [key 0 i (by omega), add_zero]
    exact (h2 i (by omega)).1
  · apply ext_getD (by rw [List.length_map, lw, hcl.2])
    intro i hi
    rw [key 1 i (by omega)]
    exact (h2 i (by omega)).2
  · rw [mle_cellT rh g hlx, ← e4]; exact h3.symm

/-- The dot-product claims are the opened values. -/
theorem dotpClaimsCheck_ok' {claims row col val : List F} {u : Unit} (h : dotpClaimsCheck claims row col val = .ok u)
    (hc : claims.length = 9) : row.length = 3 ∧ ∀ i < 3, claims.getD (3 * i) 0 = row.getD i 0 ∧
      claims.getD (3 * i + 1) 0 = col.getD i 0 ∧ claims.getD (3 * i + 2) 0 = val.getD i 0 := by
  unfold dotpClaimsCheck at h
  obtain ⟨_, h1, h⟩ := bind_ok h
  have h1 := check_ok h1
  have hr : row.length = 3 := by omega
  refine ⟨hr, fun i hi => ?_⟩
  obtain ⟨_, h2, h⟩ := bind_ok h
  obtain ⟨y, hy⟩ := mapM_all_ok h2 i (by rw [List.mem_range]; omega)
  rw [idx_ok (by omega) 0, ok_bind, idx_ok (by omega) 0, ok_bind, idx_ok (by omega) 0, ok_bind,
    idx_ok (by omega) 0, ok_bind] at hy
  obtain ⟨_, a1, hy⟩ := bind_ok hy
  obtain ⟨q, b1, hy⟩ := bind_ok hy
  obtain ⟨_, a2, hy⟩ := bind_ok hy
  obtain ⟨w, b2, hy⟩ := bind_ok hy
  have idxD : ∀ {l : List F} {i : Nat} {a : F}, idx l i = .ok a → l.getD i 0 = a := by
    intro l i a h
    by_cases hi : i < l.length
    · rw [idx_ok hi 0] at h; exact Except.ok.inj h
    · rw [idx_panic (by omega)] at h; simp at h
  rw [idxD b1, idxD b2]
  exact ⟨check_ok a1, check_ok a2, check_ok hy⟩

/-- `HashLayerProof::verify`. -/
theorem hash_rbr {E : Env F G P} (hE : E.Lawful) {rep : P → M} {π : M →ₗ[F] G} (hrep : IsRep E rep π)
    {m n nO nM nD : Nat} {b : EvalBasis M} {vO : M →ₗ[F] F} {xO : M →ₗ[F] (Fin nO → F)} {vM : M →ₗ[F] F}
    {xM : M →ₗ[F] (Fin nM → F)} {vD : M →ₗ[F] F} {xD : M →ₗ[F] (Fin nD → F)}
    (hO : ReadsPc vO xO b.ops.g0 b.ops.h b.ops.G) (hM : ReadsPc vM xM b.mem.g0 b.mem.h b.mem.G)
    (hD : ReadsPc vD xD b.derefs.g0 b.derefs.h b.derefs.G)
    (nOe : nO = 2 ^ ((4 + n) - (4 + n) / 2)) (nMe : nM = 2 ^ ((1 + m) - (1 + m) / 2))
    (nDe : nD = 2 ^ ((3 + n) - (3 + n) / 2)) {gens : SparseGens G}
    (gO : gens.ops.WF ((4 + n) - (4 + n) / 2) (π b.ops.g0) (π b.ops.h))
    (gM : gens.mem.WF ((1 + m) - (1 + m) / 2) (π b.mem.g0) (π b.mem.h))
    (gD : gens.derefs.WF ((3 + n) - (3 + n) / 2) (π b.derefs.g0) (π b.derefs.h))
    (GO : gens.ops.gensn.G = b.ops.G.map π) (GM : gens.mem.gensn.G = b.mem.G.map π)
    (GD : gens.derefs.gensn.G = b.derefs.G.map π) {pf : HashLayerProof F P}
    (s1 : pf.ops.bullet.L.length = pf.ops.bullet.R.length) (s2 : pf.mem.bullet.L.length = pf.mem.bullet.R.length)
    (s3 : pf.derefs.bullet.L.length = pf.derefs.bullet.R.length)
    (s4 : pf.row.addr.length = 3 ∧ pf.row.readTs.length = 3 ∧ pf.col.addr.length = 3 ∧
      pf.col.readTs.length = 3 ∧ pf.val.length = 3)
    {rM rO : List F} (hrm : rM.length = m) (hro : rO.length = n) {clRow clCol : MemClaims F} {cDotp : List F}
    (hcd : cDotp.length = 9) {comm : SparseComm P} {cDerefs : List P} {rx ry : List F} {rh g : F}
    {tr tr' : Tr F P}
    (hok : hashLayerVerify E pf rM rO clRow clCol cDotp comm gens cDerefs rx ry rh g tr = .ok tr') {es : List M}
    (hes : hashRels E rep π gens b pf rM rO comm cDerefs tr = .ok es) (hF : Free π es) (cur : List (Msg F M)) :
    2 ^ ((3 + n) / 2) ≤ cDerefs.length ∧ ∃ R1 R2 R3, Seg E rep tr cur (R1 ++ (R2 ++ R3)) tr' [] ∧
      R1.length = openRounds 3 (3 + n) ∧ R2.length = openRounds 4 (4 + n) ∧ R3.length = openRounds 1 (1 + m) ∧
      ∀ dr dc dz ra rt ca ct vs : List (List F), ∀ ru cu : List F,
        dr.length = 3 → dc.length = 3 → dz.length = 2 → ra.length = 3 → rt.length = 3 → ca.length = 3 →
        ct.length = 3 → vs.length = 3 → (∀ T ∈ dr ++ dc ++ dz, T.length = 2 ^ n) →
        (∀ T ∈ ra ++ rt ++ ca ++ ct ++ vs, T.length = 2 ^ n) → ru.length = 2 ^ m → cu.length = 2 ^ m →
        extractVars xD (2 ^ ((3 + n) / 2)) (cDerefs.map rep) = (dr ++ dc ++ dz).flatten →
        extractVars xO (2 ^ ((4 + n) / 2)) (comm.ops.map rep) = mergeT (ra ++ rt ++ ca ++ ct ++ vs) →
        extractVars xM (2 ^ ((1 + m) / 2)) (comm.mem.map rep) = ru ++ cu →
        ¬ Hit (openBad 3 ((dr ++ dc ++ dz).map fun T => mle T rO) vD xD rO) R1 →
        ¬ Hit (openBad 4 (padPow2 ((ra ++ rt ++ ca ++ ct ++ vs).map fun T => mle T rO)) vO xO rO) R2 →
        ¬ Hit (openBad 1 [mle ru rM, mle cu rM] vM xM rM) R3 →
        rx.length = m → ry.length = m → clRow.read.length = 3 → clRow.write.length = 3 →
        clCol.read.length = 3 → clCol.write.length = 3 →
        clRow = ⟨mle (cellT rh g (eqEvals rx) (List.replicate (2 ^ m) 0)) rM,
          (rwTabs rh g 0 ra dr rt).map fun T => mle T rO, (rwTabs rh g 1 ra dr rt).map fun T => mle T rO,
          mle (cellT rh g (eqEvals rx) ru) rM⟩ ∧
        clCol = ⟨mle (cellT rh g (eqEvals ry) (List.replicate (2 ^ m) 0)) rM,
          (rwTabs rh g 0 ca dc ct).map fun T => mle T rO, (rwTabs rh g 1 ca dc ct).map fun T => mle T rO,
          mle (cellT rh g (eqEvals ry) cu) rM⟩ ∧
        cDotp = (List.zip dr (List.zip dc vs)).flatMap fun d => [mle d.1 rO, mle d.2.1 rO, mle d.2.2 rO] := by
  unfold hashLayerVerify derefsVerify at hok
  unfold hashRels at hes
  simp only at hok hes
  obtain ⟨_, hrc, hok⟩ := bind_ok hok
  have hrc := check_ok hrc
  obtain ⟨tr1, hder, hok⟩ := bind_ok hok
  obtain ⟨⟨cs1, w1, t1⟩, hc1, hder⟩ := bind_ok hder
  rw [hc1, ok_bind] at hes
  simp only at hder hes
  rw [hder, ok_bind] at hes
  obtain ⟨_, hdot, hok⟩ := bind_ok hok
  obtain ⟨hr3, hdot⟩ := dotpClaimsCheck_ok' hdot hcd
  obtain ⟨⟨cs2, w2, t2⟩, hc2, hok⟩ := bind_ok hok
  rw [hc2, ok_bind] at hes
  simp only at hok hes
  obtain ⟨tr2, hops, hok⟩ := bind_ok hok
  rw [hops, ok_bind] at hes
  obtain ⟨⟨cs3, w3, t3⟩, hc3, hok⟩ := bind_ok hok
  rw [hc3, ok_bind] at hes
  simp only at hok hes
  obtain ⟨tr3, hmem, hok⟩ := bind_ok hok
  obtain ⟨_, hh1, hok⟩ := bind_ok hok
  obtain ⟨_, hh2, hok⟩ := bind_ok hok
  rw [pure_ok] at hok hes
  cases hok
  cases hes
  obtain ⟨hF, hF3⟩ := free_append.1 hF
  obtain ⟨hF1, hF2⟩ := free_append.1 hF
  obtain ⟨k1, k2, k3, k4, k5⟩ := s4
  have n6 : nextPow2 6 = 2 ^ 3 := by decide
  have n8 : nextPow2 8 = 2 ^ 3 := by decide
  have n15 : nextPow2 15 = 2 ^ 4 := by decide
  have v1 : (padPow2 (pf.derefRow ++ pf.derefCol)).length = 2 ^ 3 := by
    rw [padPow2_length, List.length_append, ← hrc, hr3]; exact n6
  have v2 : (evalsOps pf.row pf.col pf.val).length = 2 ^ 4 := by
    rw [evalsOps, padPow2_length]
    simp only [List.length_append, k1, k2, k3, k4, k5]; exact n15
  obtain ⟨hle, R1, S1, l1, H1⟩ := open_rbr hE hrep hD (r := rO) (a := 3) (ell := 3 + n) (by omega) (by omega) nDe gD GD s3
    v1 hc1 hder hF1 (cur ++ [.bytes "protocol-name" "Sparse polynomial hash layer proof"] ++
      [.bytes "protocol-name" "Derefs evaluation proof"])
  obtain ⟨-, R2, S2, l2, H2⟩ := open_rbr hE hrep hO (r := rO) (a := 4) (ell := 4 + n) (by omega) (by omega) nOe gO GO s1
    v2 hc2 hops hF2 []
  obtain ⟨-, R3, S3, l3, H3⟩ := open_rbr hE hrep hM (r := rM) (a := 1) (ell := 1 + m) (by omega) (by omega) nMe gM GM s2
    (evals := [pf.row.auditTs, pf.col.auditTs]) rfl hc3 hmem hF3 []
  refine ⟨hle, R1, R2, R3, ?_, l1, l2, l3, ?_⟩
  · have := ((Seg.refl E rep tr cur).protocol "Sparse polynomial hash layer proof").protocol
      "Derefs evaluation proof"
    have := this.trans (S1.trans (S2.trans S3))
    rwa [List.nil_append] at this
  intro dr dc dz ra rt ca ct vs ru cu y1 y2 y3 y4 y5 y6 y7 y8 hdT hoT hru hcu x1 x2 x3 n1 n2 n3 hrx hry c1 c2 c3 c4
  have d8 : (dr ++ dc ++ dz).length = 8 := by simp [y1, y2, y3]
  have o15 : (ra ++ rt ++ ca ++ ct ++ vs).length = 15 := by simp [y4, y5, y6, y7, y8]
  -- the three openings
  have z1 : padPow2 (pf.derefRow ++ pf.derefCol) = (dr ++ dc ++ dz).map fun T => mle T rO := by
    by_contra hne
    refine n1 (H1 _ (by rw [List.length_map, d8]; norm_num) (fun cs hcs => ?_) hne)
    have hm := mergeT_mle (tabs := dr ++ dc ++ dz) (s := cs) (r := rO) (by
      intro h; rw [h] at d8; simp at d8) (by rw [hro]; exact hdT) (by
      rw [d8, hcs]; exact n8)
    have hp : padPow2 ((dr ++ dc ++ dz).map fun T => mle T rO) = (dr ++ dc ++ dz).map fun T => mle T rO := by
      unfold padPow2
      rw [List.length_map, d8, n8]
      simp
    have hmt : mergeT (dr ++ dc ++ dz) = (dr ++ dc ++ dz).flatten := by
      have hfl := flatten_length_eq _ hdT
      unfold mergeT
      rw [hfl, d8, show 8 * 2 ^ n = 2 ^ (3 + n) by rw [pow_add]; norm_num, nextPow2_pow, Nat.sub_self]
      simp
    rw [hp, hmt] at hm
    rw [x1]; exact hm
  have z2 : evalsOps pf.row pf.col pf.val = padPow2 ((ra ++ rt ++ ca ++ ct ++ vs).map fun T => mle T rO) := by
    by_contra hne
    refine n2 (H2 _ (by rw [padPow2_length, List.length_map, o15]; exact n15)
      (fun cs hcs => ?_) hne)
    rw [x2]
    exact mergeT_mle (by intro h; rw [h] at o15; simp at o15) (by rw [hro]; exact hoT) (by
      rw [o15, hcs]; exact n15)
  have z3 : [pf.row.auditTs, pf.col.auditTs] = [mle ru rM, mle cu rM] := by
    by_contra hne
    refine n3 (H3 _ rfl (fun cs hcs => ?_) hne)
    obtain ⟨c, rfl⟩ := List.length_eq_one_iff.1 hcs
    rw [x3, List.singleton_append, mle_append (by rw [hru, hrm]) (by rw [hcu, hrm])]
    have := mle_append (a := [mle ru rM]) (b := [mle cu rM]) (r := c) (rs := []) rfl rfl
    rw [mle_nil_of_one rfl, mle_nil_of_one rfl] at this
    simpa using this.symm
  have z2' := padPow2_inj (by simp [k1, k2, k3, k4, k5, y4, y5, y6, y7, y8]) z2
  simp only [List.map_append] at z2'
  obtain ⟨z2', zv⟩ := List.append_inj' z2' (by simp [k5, y8])
  obtain ⟨z2', zct⟩ := List.append_inj' z2' (by simp [k4, y7])
  obtain ⟨z2', zca⟩ := List.append_inj' z2' (by simp [k3, y6])
  obtain ⟨zra, zrt⟩ := List.append_inj' z2' (by simp [k2, y5])
  unfold padPow2 at z1
  rw [List.map_append] at z1
  obtain ⟨z1, -⟩ := List.append_inj z1 (by simp [← hrc, hr3, y1, y2])
  rw [List.map_append] at z1
  obtain ⟨zdr, zdc⟩ := List.append_inj z1 (by simp [hr3, y1])
  simp only [List.cons.injEq, and_true] at z3
  refine ⟨?_, ?_, ?_⟩
  · exact verifyHelper_ok hrm hro hrx ⟨y4, y1, y5⟩ (fun T h => hoT T (by simp [h])) (fun T h => hoT T (by simp [h]))
      ⟨c1, c2⟩ zdr zra zrt z3.1 hh1
  · exact verifyHelper_ok hrm hro hry ⟨y6, y2, y7⟩ (fun T h => hoT T (by simp [h])) (fun T h => hoT T (by simp [h]))
      ⟨c3, c4⟩ zdc zca zct z3.2 hh2
  · rw [zdr, zdc, zv] at hdot
    obtain ⟨a0, a1, a2, rfl⟩ := List.length_eq_three.1 y1
    obtain ⟨b0, b1, b2, rfl⟩ := List.length_eq_three.1 y2
    obtain ⟨e0, e1, e2, rfl⟩ := List.length_eq_three.1 y8
    have t0 := hdot 0 (by omega)
    have t1 := hdot 1 (by omega)
    have t2 := hdot 2 (by omega)
    simp only [List.map_cons, List.map_nil, List.getD_cons_zero, List.getD_cons_succ, Nat.mul_zero, Nat.mul_one,
      Nat.reduceMul, Nat.reduceAdd, zero_add] at t0 t1 t2
    apply ext_getD (by simp [hcd])
    intro i hi
    rw [hcd] at hi
    obtain ⟨p0, p1, p2⟩ := t0
    obtain ⟨p3, p4, p5⟩ := t1
    obtain ⟨p6, p7, p8⟩ := t2
    have : i = 0 ∨ i = 1 ∨ i = 2 ∨ i = 3 ∨ i = 4 ∨ i = 5 ∨ i = 6 ∨ i = 7 ∨ i = 8 := by omega
    rcases this with rfl | rfl | rfl | rfl | rfl | rfl | rfl | rfl | rfl <;> simpa using by assumption

end Spartan
