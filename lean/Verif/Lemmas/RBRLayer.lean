import Verif.Lemmas.RBROpen
import Verif.Lemmas.RBRMem

/-! The product layer of the sparse evaluation proof, one challenge at a time. -/

set_option linter.unusedSectionVars false

namespace Spartan
open Spec
variable {F G P M : Type} [Field F] [AddCommGroup G] [Module F G] [AddCommGroup M] [Module F M]
  [DecidableEq F] [DecidableEq P] [DecidableEq G]

/-! ### the claims of the first message -/

/-- Claimed products of the reads and writes. -/
def opsCl (s : List F) : List F := (s.drop 1).take 6 ++ (s.drop 9).take 6
/-- Claimed halves of the inner products. -/
def dotCl (s : List F) : List F := (s.drop 16).take 6
/-- Claimed products of the cells. -/
def memCl (s : List F) : List F := [s.getD 0 0, s.getD 7 0, s.getD 8 0, s.getD 15 0]

theorem memEvals_seg {E : Env F G P} {rep : P → M} {tr t : Tr F P} {cur c : List (Msg F M)}
    {Rs : List (Round F M)} (h : Seg E rep tr cur Rs t c) (w : String) (e : MemEvals F) :
    ∃ c', Seg E rep tr cur Rs (t.memEvals w e) c' ∧
      scs c' = scs c ++ (e.init :: e.read ++ e.write ++ [e.audit]) ∧ pts c' = pts c := by
  unfold Tr.memEvals
  exact ⟨_, (((h.scalar _ _).scalars _ _).scalars _ _).scalar _ _, by simp, by simp⟩

theorem dotpCheckLoop_ok {E : Env F G P} {rep : P → M} : ∀ {es L R : List F} {t t' : Tr F P} {cd : List F},
    L.length = es.length → dotpCheckLoop es L R t = .ok (cd, t') →
    ∀ {tr : Tr F P} {cur c : List (Msg F M)} {Rs : List (Round F M)} (_ : Seg E rep tr cur Rs t c),
    cd.length = 2 * es.length ∧ (∀ i < es.length, cd.getD (2 * i) 0 + cd.getD (2 * i + 1) 0 = es.getD i 0) ∧
    ∃ c', Seg E rep tr cur Rs t' c' ∧ scs c' = scs c ++ cd ∧ pts c' = pts c
  | [], [], R, t, t', cd, _, h => by
    simp only [dotpCheckLoop, Except.ok.injEq, Prod.mk.injEq] at h
    obtain ⟨rfl, rfl⟩ := h
    intro S
    exact ⟨rfl, by simp, _, S, by simp, rfl⟩
  | [], _ :: _, R, t, t', cd, hl, h => by simp at hl
  | e :: es, [], R, t, t', cd, hl, h => by simp at hl
  | e :: es, l :: L, [], t, t', cd, hl, h => by simp [dotpCheckLoop] at h
  | e :: es, l :: L, r :: R, t, t', cd, hl, h => by
    unfold dotpCheckLoop at h
    obtain ⟨_, h1, h⟩ := bind_ok h
    obtain ⟨⟨cs, t1⟩, h2, h⟩ := bind_ok h
    simp only [pure_ok, Except.ok.injEq, Prod.mk.injEq] at h
    obtain ⟨rfl, rfl⟩ := h
    intro S
    obtain ⟨a1, a2, c', a3, a4, a5⟩ := dotpCheckLoop_ok (E := E) (rep := rep) (by simpa using hl) h2
      ((S.scalar "claim_eval_dotp_left" l).scalar "claim_eval_dotp_right" r)
    refine ⟨by simp [a1]; ring, fun i hi => ?_, c', a3, by rw [a4]; simp, by rw [a5]; simp⟩
    cases i with
    | zero => simpa using check_ok h1
    | succ i =>
      have := a2 i (by simpa using hi)
      rw [show 2 * (i + 1) = 2 * i + 1 + 1 by ring]
      simpa using this

/-- `prodBVerify` in terms of its loop. -/
theorem prodBVerify_ok {E : Env F G P} {pf : ProdProofBatched F} {cp cd : List F} {n : Nat} {tr : Tr F P}
    {res : List F × List F × List F × Tr F P} (h : prodBVerify E pf cp cd (2 ^ n) tr = .ok res) :
    pf.proof.length = n ∧ prodBVerifyLoop E cp.length cd pf pf.proof 0 cp [] [] tr = .ok res := by
  unfold prodBVerify at h
  rw [log2_pow, ok_bind] at h
  obtain ⟨_, h1, h⟩ := bind_ok h
  exact ⟨check_ok h1, h⟩

theorem tab_full {T : List F} {n : Nat} (h : T.length = 2 ^ n) : mle (tab T n) [] = T.prod := by
  rw [mle_nil_of_one (by rw [tab_length h n le_rfl]; simp), tab_prod h n le_rfl]

/-- `prodBVerify`: rounds, and what follows when no challenge was unfavourable and the final claims are
right. -/
theorem prodBV_rbr {E : Env F G P} {rep : P → M} {n : Nat} (hn : 1 ≤ n) {Ts : List (List F)}
    (hm : 1 ≤ Ts.length) (hT : ∀ T ∈ Ts, T.length = 2 ^ n) {ds : List (List F × List F × List F)}
    (hds : ∀ d ∈ ds, d.1.length = 2 ^ (n - 1) ∧ d.2.1.length = 2 ^ (n - 1) ∧ d.2.2.length = 2 ^ (n - 1))
    (hev : ds.length % 2 = 0) {cd : List F} (hcd : cd.length = ds.length) {pf : ProdProofBatched F}
    {cp c' d' r' : List F} {tr tr' : Tr F P} (hcp : cp.length = Ts.length)
    (h : prodBVerify E pf cp cd (2 ^ n) tr = .ok (c', d', r', tr')) (cur : List (Msg F M)) :
    ∃ Rs, Seg E rep tr cur Rs tr' [] ∧ Rs.length = prodBRounds n Ts.length ds.length n ∧ r'.length = n ∧
      r' = prodPt n (chs Rs) ∧ (Rs.headD ([], 0)).1 = cur ∧
      (¬ Hit (prodBBad n Ts ds cd n cp []) Rs → c' = (Ts.map fun T => mle T r') → d' = dotAt ds r' →
        cp = Ts.map List.prod ∧ cd = ds.map (triSum (n - 1))) := by
  obtain ⟨hl, h⟩ := prodBVerify_ok h
  rw [hcp] at h
  obtain ⟨Rs, S, a1, a2, a3, a4, a5⟩ := prodB_rbr (rep := rep) hm hT hds hev hcd pf.proof n hl le_rfl cp [] [] c' d' r'
    tr tr' cur hcp (by simp) (by rw [Nat.sub_self]; exact h)
  rw [if_neg (by omega)] at S
  refine ⟨Rs, S, a1, a2, a3 hn, a4 hn, fun hH hc hd => ?_⟩
  have e : (Ts.map fun T => mle (tab T n) []) = Ts.map List.prod := by
    apply List.map_congr_left
    intro T hx
    exact tab_full (hT T hx)
  rw [e] at a5
  by_contra hne
  rcases a5 (by
    by_contra h'
    push Not at h'
    exact hne ⟨h'.1, h'.2 hn⟩) with h1 | h1 | h1
  · exact hH h1
  · exact h1 hc
  · exact h1 hd

/-! ### the product layer -/

/-- `ProductLayerProof::verify`. -/
theorem prodLayer_rbr {E : Env F G P} {rep : P → M} {m n : Nat} (hm : 1 ≤ m) (hn : 1 ≤ n)
    {pf : ProdLayerProof F} {eval : List F} (he : eval.length = 3) {tr tr' : Tr F P}
    {cMem rM cOps cDot rO : List F}
    (hok : prodLayerVerify E pf (2 ^ n) (2 ^ m) eval tr = .ok (cMem, rM, cOps, cDot, rO, tr'))
    {cur : List (Msg F M)} (hs : scs cur = []) :
    rO.length = n ∧ rM.length = m ∧ ∃ R1 R2, Seg E rep tr cur (R1 ++ R2) tr' [] ∧
      R1.length = prodBRounds n 12 6 n ∧ R2.length = prodBRounds m 4 0 m ∧ rO = prodPt n (chs R1) ∧
      rM = prodPt m (chs R2) ∧
      ∀ (Rr Wr Rc Wc : List (List F)) (Ir Ar Ic Ac : List F) (D : List (List F × List F × List F)),
        Rr.length = 3 → Wr.length = 3 → Rc.length = 3 → Wc.length = 3 → D.length = 3 →
        (∀ T ∈ Rr ++ Wr ++ Rc ++ Wc, T.length = 2 ^ n) → (∀ T ∈ [Ir, Ar, Ic, Ac], T.length = 2 ^ m) →
        (∀ d ∈ D, d.1.length = 2 ^ n ∧ d.2.1.length = 2 ^ n ∧ d.2.2.length = 2 ^ n) →
        ¬ Hit (headB fun m0 => prodBBad n (Rr ++ Wr ++ Rc ++ Wc) (D.flatMap fun d => [loT n d, hiT n d])
          (dotCl (scs m0)) n (opsCl (scs m0)) []) R1 →
        ¬ Hit (prodBBad m [Ir, Ar, Ic, Ac] [] [] m (memCl (scs (R1.headD ([], 0)).1)) []) R2 →
        cOps = ((Rr ++ Wr ++ Rc ++ Wc).map fun T => mle T rO) →
        cMem = ([Ir, Ar, Ic, Ac].map fun T => mle T rM) →
        cDot = (D.flatMap fun d => [mle d.1 rO, mle d.2.1 rO, mle d.2.2 rO]) →
        Ir.prod * (Wr.map List.prod).prod = (Rr.map List.prod).prod * Ar.prod ∧
          Ic.prod * (Wc.map List.prod).prod = (Rc.map List.prod).prod * Ac.prod ∧ eval = D.map (triSum n) := by
  unfold prodLayerVerify at hok
  simp only at hok
  obtain ⟨_, hr, hok⟩ := bind_ok hok
  obtain ⟨_, hc, hok⟩ := bind_ok hok
  obtain ⟨_, hl, hok⟩ := bind_ok hok
  have hl := check_ok hl
  obtain ⟨⟨cd, tr1⟩, hd, hok⟩ := bind_ok hok
  obtain ⟨⟨cO, cD, randO, tr2⟩, hO, hok⟩ := bind_ok hok
  obtain ⟨⟨cM, cX, randM, tr3⟩, hM, hok⟩ := bind_ok hok
  rw [pure_ok] at hok
  simp only [Except.ok.injEq, Prod.mk.injEq] at hok
  obtain ⟨rfl, rfl, rfl, rfl, rfl, rfl⟩ := hok
  have memOk : ∀ {e : MemEvals F}, memEvalsCheck eval.length e = .ok () →
      e.write.length = 3 ∧ e.read.length = 3 ∧ e.init * e.write.prod = e.read.prod * e.audit := by
    intro e h
    unfold memEvalsCheck at h
    obtain ⟨_, h1, h⟩ := bind_ok h
    obtain ⟨_, h2, h⟩ := bind_ok h
    rw [he] at h1 h2
    exact ⟨check_ok h1, check_ok h2, check_ok h⟩
  obtain ⟨rw3, rr3, req⟩ := memOk hr
  obtain ⟨cw3, cr3, ceq⟩ := memOk hc
  obtain ⟨c1, S1, s1, -⟩ := memEvals_seg ((Seg.refl E rep tr cur).protocol
    "Sparse polynomial product layer proof") "row" pf.row
  obtain ⟨c2, S2, s2, -⟩ := memEvals_seg S1 "col" pf.col
  obtain ⟨cdl, cds, c3, S3, s3, -⟩ := dotpCheckLoop_ok hl hd S2
  rw [he] at cdl cds
  have hscs : scs c3 = pf.row.init :: pf.row.read ++ pf.row.write ++ [pf.row.audit] ++
      (pf.col.init :: pf.col.read ++ pf.col.write ++ [pf.col.audit]) ++ cd := by
    rw [s3, s2, s1]; simp [hs]
  have e1 : opsCl (scs c3) = pf.row.read ++ pf.row.write ++ pf.col.read ++ pf.col.write := by
    rw [hscs]
    obtain ⟨a0, a1, a2, ha⟩ := List.length_eq_three.1 rr3
    obtain ⟨b0, b1, b2, hb⟩ := List.length_eq_three.1 rw3
    obtain ⟨x0, x1, x2, hx⟩ := List.length_eq_three.1 cr3
    obtain ⟨y0, y1, y2, hy⟩ := List.length_eq_three.1 cw3
    rw [ha, hb, hx, hy]
    simp [opsCl]
  have e2 : dotCl (scs c3) = cd := by
    rw [hscs]
    obtain ⟨a0, a1, a2, ha⟩ := List.length_eq_three.1 rr3
    obtain ⟨b0, b1, b2, hb⟩ := List.length_eq_three.1 rw3
    obtain ⟨x0, x1, x2, hx⟩ := List.length_eq_three.1 cr3
    obtain ⟨y0, y1, y2, hy⟩ := List.length_eq_three.1 cw3
    rw [ha, hb, hx, hy]
    simp only [dotCl, List.cons_append, List.nil_append, List.drop_succ_cons, List.drop_zero]
    exact List.take_of_length_le (by omega)
  have e3 : memCl (scs c3) = [pf.row.init, pf.row.audit, pf.col.init, pf.col.audit] := by
    rw [hscs]
    obtain ⟨a0, a1, a2, ha⟩ := List.length_eq_three.1 rr3
    obtain ⟨b0, b1, b2, hb⟩ := List.length_eq_three.1 rw3
    obtain ⟨x0, x1, x2, hx⟩ := List.length_eq_three.1 cr3
    obtain ⟨y0, y1, y2, hy⟩ := List.length_eq_three.1 cw3
    rw [ha, hb, hx, hy]
    simp [memCl]
  -- rounds and points, from arbitrary tables
  have key1 : ∀ (Ts : List (List F)) (ds : List (List F × List F × List F)), Ts.length = 12 → ds.length = 6 →
      (∀ T ∈ Ts, T.length = 2 ^ n) →
      (∀ d ∈ ds, d.1.length = 2 ^ (n - 1) ∧ d.2.1.length = 2 ^ (n - 1) ∧ d.2.2.length = 2 ^ (n - 1)) →
      ∃ Rs, Seg E rep tr1 c3 Rs tr2 [] ∧ Rs.length = prodBRounds n 12 6 n ∧ randO.length = n ∧
      randO = prodPt n (chs Rs) ∧ (Rs.headD ([], 0)).1 = c3 ∧
      (¬ Hit (prodBBad n Ts ds cd n (pf.row.read ++ pf.row.write ++ pf.col.read ++ pf.col.write) []) Rs →
        cO = (Ts.map fun T => mle T randO) → cD = dotAt ds randO →
        pf.row.read ++ pf.row.write ++ pf.col.read ++ pf.col.write = Ts.map List.prod ∧
          cd = ds.map (triSum (n - 1))) := by
    intro Ts ds l1 l2 hT hds
    have := prodBV_rbr (rep := rep) hn (Ts := Ts) (by omega) hT hds (by omega) (by rw [cdl, l2]) (by
      simp [rr3, rw3, cr3, cw3, l1]) hO c3
    rwa [l1, l2] at this
  have key2 : ∀ (Ts : List (List F)), Ts.length = 4 → (∀ T ∈ Ts, T.length = 2 ^ m) →
      ∃ Rs, Seg E rep tr2 [] Rs tr3 [] ∧ Rs.length = prodBRounds m 4 0 m ∧ randM.length = m ∧
      randM = prodPt m (chs Rs) ∧ (Rs.headD ([], 0)).1 = ([] : List (Msg F M)) ∧
      (¬ Hit (prodBBad m Ts [] [] m [pf.row.init, pf.row.audit, pf.col.init, pf.col.audit] []) Rs →
        cM = (Ts.map fun T => mle T randM) → cX = dotAt [] randM →
        [pf.row.init, pf.row.audit, pf.col.init, pf.col.audit] = Ts.map List.prod ∧
          ([] : List F) = ([] : List (List F × List F × List F)).map (triSum (m - 1))) := by
    intro Ts l1 hT
    have := prodBV_rbr (rep := rep) hm (Ts := Ts) (by omega) hT (ds := []) (by simp) (by simp) (by simp)
      (by simp [l1]) hM []
    rwa [l1] at this
  obtain ⟨R1, T1, l1, q1, q2, q3, -⟩ := key1 (List.replicate 12 (List.replicate (2 ^ n) 0))
    (List.replicate 6 (List.replicate (2 ^ (n - 1)) 0, List.replicate (2 ^ (n - 1)) 0, List.replicate (2 ^ (n - 1)) 0))
    (by simp) (by simp) (by simp) (by simp)
  obtain ⟨R2, T2, l2, q4, q5, -, -⟩ := key2 (List.replicate 4 (List.replicate (2 ^ m) 0)) (by simp) (by simp)
  refine ⟨q1, q4, R1, R2, ?_, l1, l2, q2, q5, ?_⟩
  · have := S3.trans (T1.trans T2)
    rwa [List.nil_append] at this
  intro Rr Wr Rc Wc Ir Ar Ic Ac D d1 d2 d3 d4 d5 hOT hMT hD hH1 hH2 f1 f2 f3
  have uniq : ∀ {t t' : Tr F P} {c c1 c2 : List (Msg F M)} {Ra Rb : List (Round F M)},
      Seg E rep t c Ra t' c1 → Seg E rep t c Rb t' c2 → Ra = Rb := by
    rintro t t' c c1 c2 Ra Rb ⟨ms, rfl, h1⟩ ⟨ms', h2, h3⟩
    obtain rfl := List.append_cancel_left h2
    rw [h1] at h3
    exact (Prod.mk.inj h3).1
  have hhalf : ∀ d ∈ D.flatMap fun d => [loT n d, hiT n d],
      d.1.length = 2 ^ (n - 1) ∧ d.2.1.length = 2 ^ (n - 1) ∧ d.2.2.length = 2 ^ (n - 1) := by
    intro d hd
    obtain ⟨x, hx, hd⟩ := List.mem_flatMap.1 hd
    obtain ⟨y1, y2, y3⟩ := hD x hx
    have e : 2 ^ n = 2 ^ (n - 1) + 2 ^ (n - 1) := by
      obtain ⟨k, rfl⟩ : ∃ k, n = k + 1 := ⟨n - 1, by omega⟩
      rw [pow_succ, Nat.add_sub_cancel]; ring
    simp only [List.mem_cons, List.not_mem_nil, or_false] at hd
    rcases hd with rfl | rfl
    · refine ⟨?_, ?_, ?_⟩ <;> simp only [loT, List.length_take] <;> omega
    · refine ⟨?_, ?_, ?_⟩ <;> simp only [hiT, List.length_drop] <;> omega
  have hfl : (D.flatMap fun d => [loT n d, hiT n d]).length = 6 := by
    obtain ⟨a0, a1, a2, ha⟩ := List.length_eq_three.1 d5
    rw [ha]; rfl
  obtain ⟨R1', T1', -, -, -, -, k1⟩ := key1 (Rr ++ Wr ++ Rc ++ Wc) (D.flatMap fun d => [loT n d, hiT n d])
    (by simp [d1, d2, d3, d4]) hfl hOT hhalf
  obtain rfl := uniq T1 T1'
  obtain ⟨R2', T2', -, -, -, -, k2⟩ := key2 [Ir, Ar, Ic, Ac] rfl hMT
  obtain rfl := uniq T2 T2'
  rw [q3, e3] at hH2
  obtain ⟨g1, g2⟩ := k1 (fun h => hH1 (Hit.head (m := c3) (by rw [e1, e2]; exact h) q3)) f1
    (by rw [dotAt_halves]; exact f3)
  have hcX : cX = dotAt [] randM := by
    -- with no dot products, the second claims are empty
    clear key1 key2 k1 k2
    obtain ⟨hlp, hM⟩ := prodBVerify_ok hM
    have : ∀ (lps : List (LayerProofBatched F)) (k : Nat) (cl dcl rd a b c : List F) (t t' : Tr F P),
        dcl = [] → prodBVerifyLoop E 4 [] pf.mem lps k cl dcl rd t = .ok (a, b, c, t') → b = [] := by
      intro lps
      induction lps with
      | nil =>
        intro k cl dcl rd a b c t t' hd h
        simp only [prodBVerifyLoop, Except.ok.injEq, Prod.mk.injEq] at h
        rw [← h.2.1, hd]
      | cons lp lps ih =>
        intro k cl dcl rd a b c t t' hd h
        obtain ⟨_, _, _, _, _, _, _, _, -, -, -, -, -, -, -, -, -, -, -, hrec⟩ := prodBLoop_cons_ok h
        exact ih _ _ _ _ _ _ _ _ _ (by simp [hd, dotpNext]) hrec
    rw [this _ _ _ _ _ _ _ _ _ _ rfl hM]
    simp [dotAt]
  obtain ⟨g3, -⟩ := k2 hH2 f2 hcX
  rw [List.map_append, List.map_append, List.map_append] at g1
  obtain ⟨g1, gw⟩ := List.append_inj' g1 (by simp [cw3, d4])
  obtain ⟨g1, gr⟩ := List.append_inj' g1 (by simp [cr3, d3])
  obtain ⟨g5, g6⟩ := List.append_inj' g1 (by simp [rw3, d2])
  simp only [List.map_cons, List.map_nil, List.cons.injEq, and_true] at g3
  obtain ⟨i1, i2, i3, i4⟩ := g3
  refine ⟨?_, ?_, ?_⟩
  · rw [← i1, ← i2, ← g5, ← g6]; exact req
  · rw [← i3, ← i4, ← gr, ← gw]; exact ceq
  · obtain ⟨a0, a1, a2, ha⟩ := List.length_eq_three.1 d5
    obtain ⟨v0, v1, v2, hv⟩ := List.length_eq_three.1 he
    have hsum : ∀ d ∈ D, triSum (n - 1) (loT n d) + triSum (n - 1) (hiT n d) = triSum n d := by
      intro d hd
      obtain ⟨k, rfl⟩ : ∃ k, n = k + 1 := ⟨n - 1, by omega⟩
      obtain ⟨y1, y2, y3⟩ := hD d hd
      exact sum_take_drop y1 y2 y3
    have t0 := cds 0 (by omega)
    have t1 := cds 1 (by omega)
    have t2 := cds 2 (by omega)
    rw [g2, hv, ha] at t0 t1 t2
    rw [ha] at hsum
    simp only [List.flatMap_cons, List.flatMap_nil, List.append_nil, List.cons_append, List.nil_append, List.map_cons,
      List.map_nil, Nat.mul_zero, Nat.mul_one, Nat.reduceMul, Nat.reduceAdd, List.getD_cons_zero, List.getD_cons_succ,
      zero_add] at t0 t1 t2
    rw [hsum a0 (by simp)] at t0
    rw [hsum a1 (by simp)] at t1
    rw [hsum a2 (by simp)] at t2
    rw [hv, ha, List.map_cons, List.map_cons, List.map_cons, List.map_nil, t0, t1, t2]

end Spartan
