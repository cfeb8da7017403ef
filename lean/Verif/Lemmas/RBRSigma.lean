import Verif.Spec.Relations
import Verif.Lemmas.Rounds
import Verif.Lemmas.ZKSumcheck
import Verif.Lemmas.Coupling

/-! Round-by-round soundness of the sigma protocols and of the zero-knowledge sum-check. -/

set_option linter.unusedSectionVars false

namespace Spartan
open Spec
variable {F G P M : Type} [Field F] [AddCommGroup G] [Module F G] [AddCommGroup M] [Module F M]
  [DecidableEq F] [DecidableEq P] [DecidableEq G]

/-- The relations in `es` are trivial as soon as they hold in the group. -/
def Free (π : M →ₗ[F] G) (es : List M) : Prop := ∀ e ∈ es, π e = 0 → e = 0

theorem free_cons {π : M →ₗ[F] G} {e : M} {es : List M} :
    Free π (e :: es) ↔ (π e = 0 → e = 0) ∧ Free π es := by simp [Free]

theorem free_append {π : M →ₗ[F] G} {es es' : List M} :
    Free π (es ++ es') ↔ Free π es ∧ Free π es' := by
  unfold Free
  simp only [List.mem_append]
  exact ⟨fun h => ⟨fun e he => h e (.inl he), fun e he => h e (.inr he)⟩,
    fun h e he => he.elim (h.1 e) (h.2 e)⟩

theorem Free.eq {π : M →ₗ[F] G} {a b : M} (h : π (a - b) = 0 → a - b = 0) (e : π a = π b) : a = b :=
  sub_eq_zero.1 (h (by rw [map_sub, e, sub_self]))

/-- Coefficients of a combination. -/
def co {n : Nat} (x : M →ₗ[F] (Fin n → F)) (m : M) : List F := List.ofFn (x m)

@[simp] theorem co_length {n : Nat} (x : M →ₗ[F] (Fin n → F)) (m : M) : (co x m).length = n := by simp [co]

theorem dot_co_smul_add {n : Nat} (x : M →ₗ[F] (Fin n → F)) (c : F) (m m' : M) {a : List F}
    (ha : a.length = n) : dot (co x (c • m + m')) a = c * dot (co x m) a + dot (co x m') a := by
  unfold co dot
  rw [add_comm, map_add, map_smul, lc_ofFn_add _ _ _ ha, smul_eq_mul]; ring

/-! ### equality -/

/-- Last points of the message: `C1`, `C2`, `alpha`. -/
def eqBad (v : M →ₗ[F] F) (ms : List (Msg F M)) : Set F :=
  {c | v (ptR ms 2) ≠ v (ptR ms 1) ∧ c * (v (ptR ms 2) - v (ptR ms 1)) + v (ptR ms 0) = 0}

theorem eqBad_small (v : M →ₗ[F] F) (ms : List (Msg F M)) : AtMost 1 (eqBad v ms) := by
  by_cases h : v (ptR ms 2) = v (ptR ms 1)
  · exact (AtMost.empty 1).mono le_rfl (fun c hc => absurd h hc.1)
  · exact AtMost.linear (sub_ne_zero.2 h) fun c hc => hc.2

theorem eq_rbr {E : Env F G P} (hE : E.Lawful) {rep : P → M} {π : M →ₗ[F] G} (hrep : IsRep E rep π)
    {v : M →ₗ[F] F} {h : M} (hv : v h = 0) {pf : EqualityProof F P} {g : Gens G} (hg : g.h = π h)
    {tr tr' : Tr F P} {C1 C2 : P} (hok : pf.verify E g tr C1 C2 = .ok tr')
    (hF : Free π (eqRels rep h pf (E.hash tr') C1 C2)) (cur : List (Msg F M)) :
    ∃ ms, Seg E rep tr cur [(ms, E.hash tr')] tr' [] ∧
      pts ms = pts cur ++ [rep C1, rep C2, rep pf.alpha] ∧
      (v (rep C1) ≠ v (rep C2) → E.hash tr' ∈ eqBad v ms) := by
  obtain ⟨ht, C1', C2', a', h1, h2, h3, he⟩ := (EqualityProof.verify_ok_iff hE).1 hok
  rw [← ht] at he
  have hs := (((((Seg.refl E rep tr cur).protocol "equality proof").point "C1" C1).point "C2" C2).point
    "alpha" pf.alpha).chal "c"
  change Seg E rep tr cur [(_, E.hash (eqTr tr C1 C2 pf.alpha))] (eqTr tr C1 C2 pf.alpha) [] at hs
  rw [← ht] at hs
  refine ⟨_, hs, by simp, fun hne => ?_⟩
  · have := Free.eq (free_cons.1 hF).1 (by
      simp only [map_add, map_smul, map_sub, hrep _ _ h1, hrep _ _ h2, hrep _ _ h3, ← hg, he])
    have := congrArg v this
    simp only [map_add, map_smul, map_sub, hv, smul_eq_mul, mul_zero] at this
    simp only [eqBad, ptR, pts_append, pts_cpoint, pts_cbytes, pts_nil, List.reverse_append, List.append_nil,
      List.reverse_cons, List.reverse_nil, List.nil_append, List.cons_append, List.getD_cons_zero,
      List.getD_cons_succ, Set.mem_setOf_eq, List.append_assoc]
    exact ⟨hne, by rw [← this]⟩

/-! ### product -/

/-- Last points of the message: `X`, `Y`, `Z`, `alpha`, `beta`, `delta`. -/
def prodBad (v : M →ₗ[F] F) (ms : List (Msg F M)) : Set F :=
  {c | v (ptR ms 3) ≠ v (ptR ms 5) * v (ptR ms 4) ∧
    c * (v (ptR ms 3) - v (ptR ms 5) * v (ptR ms 4)) + (v (ptR ms 0) - v (ptR ms 1) * v (ptR ms 5)) = 0}

theorem prodBad_small (v : M →ₗ[F] F) (ms : List (Msg F M)) : AtMost 1 (prodBad v ms) := by
  by_cases h : v (ptR ms 3) = v (ptR ms 5) * v (ptR ms 4)
  · exact (AtMost.empty 1).mono le_rfl (fun c hc => absurd h hc.1)
  · exact AtMost.linear (sub_ne_zero.2 h) fun c hc => hc.2

theorem prod_rbr {E : Env F G P} (hE : E.Lawful) {rep : P → M} {π : M →ₗ[F] G} (hrep : IsRep E rep π)
    {v : M →ₗ[F] F} {g0 h : M} (hv0 : v g0 = 1) (hv : v h = 0) {pf : ProductProof F P}
    {tr tr' : Tr F P} {X Y Z : P} (hok : pf.verify E (Gens.single (π g0) (π h)) tr X Y Z = .ok tr')
    (hF : Free π (prodRels rep g0 h pf (E.hash tr') X Y Z)) (cur : List (Msg F M)) :
    ∃ ms, Seg E rep tr cur [(ms, E.hash tr')] tr' [] ∧
      (v (rep Z) ≠ v (rep X) * v (rep Y) → E.hash tr' ∈ prodBad v ms) := by
  obtain ⟨ht, X', Y', Z', a', b', d', h1, h2, h3, h4, h5, h6, e1, e2, e3⟩ :=
    (ProductProof.verify_ok_iff hE).1 hok
  have hs := ((((((((Seg.refl E rep tr cur).protocol "product proof").point "X" X).point "Y" Y).point
    "Z" Z).point "alpha" pf.alpha).point "beta" pf.beta).point "delta" pf.delta).chal "c"
  change Seg E rep tr cur [(_, E.hash (prodTr tr X Y Z pf.alpha pf.beta pf.delta))]
    (prodTr tr X Y Z pf.alpha pf.beta pf.delta) [] at hs
  rw [← ht] at hs
  refine ⟨_, hs, fun hne => ?_⟩
  · obtain ⟨f1, f2⟩ := free_cons.1 hF
    have q1 := Free.eq f1 (by simp only [map_add, map_smul, hrep _ _ h2, hrep _ _ h5, e2])
    have q2 := Free.eq (free_cons.1 f2).1 (by
      simp only [map_add, map_smul, hrep _ _ h1, hrep _ _ h3, hrep _ _ h6, e3])
    have q1 := congrArg v q1
    have q2 := congrArg v q2
    simp only [map_add, map_smul, hv, hv0, smul_eq_mul, mul_zero, mul_one, add_zero] at q1 q2
    simp only [prodBad, ptR, pts_append, pts_cpoint, pts_cbytes, pts_nil, List.reverse_append, List.append_nil,
      List.reverse_cons, List.reverse_nil, List.nil_append, List.cons_append, List.getD_cons_zero,
      List.getD_cons_succ, Set.mem_setOf_eq, List.append_assoc]
    refine ⟨hne, ?_⟩
    linear_combination q2 - v (rep X) * q1

/-! ### dot product -/

/-- The functional `x` reads the coefficients of commitments made with `gn`. -/
def ReadsBasis {n : Nat} (x : M →ₗ[F] (Fin n → F)) (gn : Gens M) : Prop :=
  ∀ (z : List F) (t : F), z.length = n → co x (lc z gn.G + t • gn.h) = z

/-- Last points of the message: `Cx`, `Cy`, `delta`, `beta`. -/
def dotBad {n : Nat} (v : M →ₗ[F] F) (x : M →ₗ[F] (Fin n → F)) (a : List F) (ms : List (Msg F M)) :
    Set F :=
  {c | v (ptR ms 2) ≠ dot (co x (ptR ms 3)) a ∧
    c * (v (ptR ms 2) - dot (co x (ptR ms 3)) a) + (v (ptR ms 0) - dot (co x (ptR ms 1)) a) = 0}

theorem dotBad_small {n : Nat} (v : M →ₗ[F] F) (x : M →ₗ[F] (Fin n → F)) (a : List F)
    (ms : List (Msg F M)) : AtMost 1 (dotBad v x a ms) := by
  by_cases h : v (ptR ms 2) = dot (co x (ptR ms 3)) a
  · exact (AtMost.empty 1).mono le_rfl (fun c hc => absurd h hc.1)
  · exact AtMost.linear (sub_ne_zero.2 h) fun c hc => hc.2

theorem dot_rbr {E : Env F G P} {rep : P → M} {π : M →ₗ[F] G} (hrep : IsRep E rep π)
    {v : M →ₗ[F] F} {g0 h : M} (hv0 : v g0 = 1) (hv : v h = 0) {n : Nat} {x : M →ₗ[F] (Fin n → F)}
    {gm : Gens M} (hx : ReadsBasis x gm) {gn : Gens G} (hgn : gn.WF) (hn : gn.n = n)
    (hG : gn.G = gm.G.map π) (hh : gn.h = π gm.h) {pf : DotProductProof F P}
    {tr tr' : Tr F P} {a : List F} {Cx Cy : P}
    (hok : pf.verify E (Gens.single (π g0) (π h)) gn tr a Cx Cy = .ok tr')
    (hF : Free π (dotRels rep g0 h gm pf (E.hash tr') a Cx Cy)) (cur : List (Msg F M)) :
    tr' = dotTr tr Cx Cy a pf.delta pf.beta ∧ ∃ ms, Seg E rep tr cur [(ms, E.hash tr')] tr' [] ∧
      (v (rep Cy) ≠ dot (co x (rep Cx)) a → E.hash tr' ∈ dotBad v x a ms) := by
  obtain ⟨ha, hz, ht, Cx', Cy', d', b', h1, h2, h3, h4, e1, e2⟩ :=
    (DotProductProof.verify_ok_iff hgn).1 hok
  have hs := ((((((((Seg.refl E rep tr cur).protocol "dot product proof").point "Cx" Cx).point "Cy"
    Cy)).scalars "a" a).point "delta" pf.delta).point "beta" pf.beta).chal "c"
  change Seg E rep tr cur [(_, E.hash (dotTr tr Cx Cy a pf.delta pf.beta))]
    (dotTr tr Cx Cy a pf.delta pf.beta) [] at hs
  rw [← ht] at hs
  refine ⟨ht, _, hs, fun hne => ?_⟩
  · obtain ⟨f1, f2⟩ := free_cons.1 hF
    have hlc : ∀ (z : List F) (l : List M), π (lc z l) = lc z (l.map π) := by
      intro z l
      induction z generalizing l with
      | nil => simp
      | cons s z ih => cases l <;> simp [ih]
    have q1 := Free.eq f1 (by simp only [map_add, map_smul, hrep _ _ h1, hrep _ _ h3, e1, hlc, hG, hh])
    have q2 := Free.eq (free_cons.1 f2).1 (by
      simp only [map_add, map_smul, hrep _ _ h2, hrep _ _ h4, e2])
    have q2 := congrArg v q2
    have q1 := congrArg (fun m => dot (co x m) a) q1
    rw [hx pf.z _ (by rw [hz, ← ha, hn]), dot_co_smul_add _ _ _ _ (by rw [← ha, hn])] at q1
    simp only [map_add, map_smul, hv, hv0, smul_eq_mul, mul_zero, mul_one, add_zero] at q2
    simp only [dotBad, ptR, pts_append, pts_cpoint, pts_cbytes, pts_nil, pts_scalars, List.reverse_append,
      List.append_nil,
      List.reverse_cons, List.reverse_nil, List.nil_append, List.cons_append, List.getD_cons_zero,
      List.getD_cons_succ, Set.mem_setOf_eq, List.append_assoc]
    refine ⟨hne, ?_⟩
    linear_combination q2 - q1


/-! ### zero-knowledge sum-check -/

/-- Bad challenges of one round of the sum-check; `g` is the true polynomial of the round. -/
def zkRoundBad {n : Nat} (v : M →ₗ[F] F) (x : M →ₗ[F] (Fin n → F)) (g : F → F) : Bads F M
  | [], ms => {r | (∃ y, polyEval (co x (ptR ms 0)) y ≠ g y) ∧ polyEval (co x (ptR ms 0)) r = g r}
  | [(m0, r)], ms =>
    {w | v (ptR ms 1) ≠ polyEval (co x (ptR m0 0)) 0 + polyEval (co x (ptR m0 0)) 1 ∧
      v (ptR ms 0) = polyEval (co x (ptR m0 0)) r ∧ w = 0}
  | [(m0, r), (m1, w0)], _ =>
    {w | v (ptR m1 0) ≠ polyEval (co x (ptR m0 0)) r ∧
      w * (v (ptR m1 0) - polyEval (co x (ptR m0 0)) r) + w0 *
        (v (ptR m1 1) - (polyEval (co x (ptR m0 0)) 0 + polyEval (co x (ptR m0 0)) 1)) = 0}
  | [(_, r), (_, w0), (_, w1)], ms => dotBad v x (zkWeights w0 w1 r n) ms
  | _, _ => ∅

theorem zkRoundBad_small {n d : Nat} (hd : n = d + 1) (h1 : 1 ≤ d) (v : M →ₗ[F] F)
    (x : M →ₗ[F] (Fin n → F)) {g : F → F}
    {q : Polynomial F} (hq : q.natDegree ≤ d) (hg : ∀ y, g y = q.eval y) :
    Small d (zkRoundBad v x g) := by
  intro hist ms
  match hist with
  | [] =>
    obtain ⟨p, hp, hpe⟩ := exists_poly_of_list (co x (ptR ms 0)) (d := d) (by rw [co_length, hd])
    by_cases h : ∃ y, polyEval (co x (ptR ms 0)) y ≠ g y
    · refine AtMost.roots (q := p - q) ?_ ?_ (S := _) ?_
      · intro h0
        obtain ⟨y, hy⟩ := h
        apply hy
        have := congrArg (Polynomial.eval y) h0
        rw [Polynomial.eval_sub, ← hg, hpe, Polynomial.eval_zero] at this
        exact sub_eq_zero.1 this
      · exact (Polynomial.natDegree_sub_le _ _).trans (max_le hp hq)
      · rintro r ⟨-, hr⟩
        rw [Polynomial.eval_sub, hpe, ← hg, hr, sub_self]
    · exact (AtMost.empty d).mono le_rfl (fun c hc => absurd hc.1 h)
  | [(m0, r)] =>
    exact ⟨{0}, by simpa using h1, fun w hw => by simpa using hw.2.2⟩
  | [(m0, r), (m1, w0)] =>
    refine AtMost.mono (d := 1) ?_ h1 le_rfl
    by_cases h : v (ptR m1 0) = polyEval (co x (ptR m0 0)) r
    · exact (AtMost.empty 1).mono le_rfl (fun c hc => absurd h hc.1)
    · exact AtMost.linear (sub_ne_zero.2 h) fun c hc => hc.2
  | [(_, r), (_, w0), (_, w1)] => exact (dotBad_small v x _ ms).mono h1 le_rfl
  | _ :: _ :: _ :: _ :: _ => exact AtMost.empty d

/-- Bad challenges of the sum-check for `f`, a function of `k` variables. -/
def zkBad {n : Nat} (v : M →ₗ[F] F) (x : M →ₗ[F] (Fin n → F)) : Nat → (List F → F) → Bads F M
  | 0, _ => noneB
  | k + 1, f => seqB 4 (zkRoundBad v x fun y => cubeSum k f [y])
      fun h => zkBad v x k fun l => f ((chs h).getD 0 0 :: l)

theorem zkBad_small {n d : Nat} (hd : n = d + 1) (h1 : 1 ≤ d) (v : M →ₗ[F] F)
    (x : M →ₗ[F] (Fin n → F)) : ∀ (k : Nat) (f : List F → F), IndivDegree k d f →
    Small d (zkBad v x k f)
  | 0, _, _ => noneB_small d
  | k + 1, f, hf => by
    obtain ⟨q, hq, hqe⟩ := exists_partial hf
    exact Small.seq (zkRoundBad_small hd h1 v x hq fun y => (hqe y).symm)
      fun h => zkBad_small hd h1 v x k _ (indivDegree_cons hf _)

/-- The evaluation point contained in the challenges of a sum-check. -/
def zkPt : List F → List F
  | r :: _ :: _ :: _ :: t => r :: zkPt t
  | _ => []

theorem idx_zero_ok {α : Type} {l : List α} {a : α} (h : idx l 0 = .ok a) : ∃ l', l = a :: l' := by
  cases l with
  | nil => simp [idx] at h
  | cons b l => simp only [idx, List.getElem?_cons_zero, Except.ok.injEq] at h; exact ⟨l, by rw [h]⟩

theorem zk_rbr {E : Env F G P} {rep : P → M} {π : M →ₗ[F] G} (hE : E.Lawful) (hrep : IsRep E rep π)
    {v : M →ₗ[F] F} {g0 h : M} (hv0 : v g0 = 1) (hv : v h = 0) {d : Nat}
    {x : M →ₗ[F] (Fin (d + 1) → F)}
    {gm : Gens M} (hx : ReadsBasis x gm) {gn : Gens G} (hgn : gn.WF) (hn : gn.n = d + 1)
    (hG : gn.G = gm.G.map π) (hh : gn.h = π gm.h) :
    ∀ (cps ces : List P) (pfs : List (DotProductProof F P)) (f : List F → F) (claim : P) (rs : List F)
      (tr tr' : Tr F P) (cur : List (Msg F M)), ces.length = cps.length →
    zkVerifyLoop E d (Gens.single (π g0) (π h)) gn cps ces pfs claim tr = .ok (rs, tr') →
    Free π (zkRels E rep π g0 h gm d cps ces pfs claim tr) →
    ∃ Rs, Seg E rep tr cur Rs tr' (if cps = [] then cur else []) ∧ Rs.length = 4 * cps.length ∧
      rs = zkPt (chs Rs) ∧ (v (rep claim) ≠ cubeSum cps.length f [] →
        Hit (zkBad v x cps.length f) Rs ∨ v (rep (ces.getLastD claim)) ≠ f rs)
  | [], ces, pfs, f, claim, rs, tr, tr', cur, hl, hok, _ => by
    rw [zkVerifyLoop] at hok
    cases hok
    obtain rfl : ces = [] := by simpa using hl
    refine ⟨[], by simpa using Seg.refl E rep tr cur, rfl, rfl, fun hne => .inr ?_⟩
    rw [List.length_nil, cubeSum_zero] at hne
    exact hne
  | cp :: cps, ces, pfs, f, claim, rs, tr, tr', cur, hl, hok, hF => by
    rw [zkVerifyLoop] at hok
    simp only [Env.challenge, challengeVec_two, List.getD_cons_zero, List.getD_cons_succ] at hok
    obtain ⟨ce, hce, hok⟩ := bind_ok hok
    obtain ⟨ces, rfl⟩ := idx_zero_ok hce
    obtain ⟨pts', hpts, hok⟩ := bind_ok hok
    obtain ⟨tgt, htgt, hok⟩ := bind_ok hok
    obtain ⟨pf, hpf, hok⟩ := bind_ok hok
    obtain ⟨pfs, rfl⟩ := idx_zero_ok hpf
    obtain ⟨t4, hdot, hok⟩ := bind_ok hok
    obtain ⟨⟨rs1, t5⟩, hloop, hok⟩ := bind_ok hok
    simp only [pure_ok, Except.ok.injEq, Prod.mk.injEq] at hok
    obtain ⟨rfl, rfl⟩ := hok
    simp only [List.tail_cons] at hloop
    -- decoded points
    simp only [List.mapM_cons, List.mapM_nil, bind_ok_iff, decompressU_ok_iff, pure_ok,
      Except.ok.injEq] at hpts
    obtain ⟨c', hc', -, ⟨e', he', -, rfl, rfl⟩, rfl⟩ := hpts
    set r := E.hash (tr.point "comm_poly" cp ++ [.chal "challenge_nextround"]) with hr
    set t2 := (Tr.point (tr.point "comm_poly" cp ++ [.chal "challenge_nextround"]) "comm_claim_per_round"
      claim).point "comm_eval" ce with ht2
    set w0 := E.hash (t2 ++ [.chal "combine_two_claims_to_one"]) with hw0
    set w1 := E.hash (t2 ++ [.chal "combine_two_claims_to_one"] ++ [.chal "combine_two_claims_to_one"])
      with hw1
    cases htgt
    have htg : w0 • c' + (w1 • e' + 0) = π (w0 • rep claim + w1 • rep ce) := by
      rw [map_add, map_smul, map_smul, hrep _ _ hc', hrep _ _ he', add_zero]
    rw [htg] at hdot
    simp only [zkRels, Env.challenge, ← hr, ← ht2, ← hw0, ← hw1] at hF
    rw [List.cons_append, free_cons, free_append] at hF
    obtain ⟨f1, f2, f3⟩ := hF
    set tg := E.compress (π (w0 • rep claim + w1 • rep ce)) with htgd
    have htrep : rep tg = w0 • rep claim + w1 • rep ce := Free.eq f1 (hrep _ _ (hE _))
    have hpre : ∀ t4', pf.verify E (Gens.single (π g0) (π h)) gn (t2 ++ [.chal "combine_two_claims_to_one"]
        ++ [.chal "combine_two_claims_to_one"]) (zkWeights w0 w1 r (d + 1)) cp tg = .ok t4' →
        t4' = dotTr (t2 ++ [.chal "combine_two_claims_to_one"]
        ++ [.chal "combine_two_claims_to_one"]) cp tg (zkWeights w0 w1 r (d + 1)) pf.delta pf.beta :=
      fun t4' h4 => ((DotProductProof.verify_ok_iff hgn).1 h4).2.2.1
    rw [← hpre t4 hdot] at f2 f3
    obtain ⟨-, ms, hseg, hbad⟩ := dot_rbr hrep hv0 hv hx hgn hn hG hh hdot f2 []
    obtain ⟨Rs, hS, hRl, hrs, himp⟩ := zk_rbr hE hrep hv0 hv hx hgn hn hG hh cps ces pfs
      (fun l => f (r :: l)) ce rs1 t4 t5 [] (by simpa using hl) hloop f3
    have s1 := ((((((Seg.refl E rep tr cur).point "comm_poly" cp).chal "challenge_nextround").point
      "comm_claim_per_round" claim).point "comm_eval" ce).chal "combine_two_claims_to_one").chal
        "combine_two_claims_to_one"
    rw [← ht2, ← hr, ← hw0, ← hw1] at s1
    have s2 := (s1.trans hseg).trans hS
    simp only [List.nil_append, List.cons_append, List.append_nil, List.append_assoc, ite_self] at s2
    refine ⟨_, by simpa using s2, by simp [hRl]; ring, by simp [chs, zkPt, hrs], fun hne => ?_⟩
    have hlast : (ce :: ces).getLastD claim = ces.getLastD ce := by cases ces <;> rfl
    rw [hlast]
    set p := co x (rep cp) with hp
    -- the first four rounds
    by_cases hdt : v (rep tg) = dot p (zkWeights w0 w1 r (d + 1))
    swap
    · left
      refine ⟨[(_, r), (_, w0), (_, w1)], ms, E.hash t4, Rs, rfl, ?_⟩
      rw [List.length_cons, zkBad, seqB, if_pos (by simp)]
      exact hbad hdt
    rw [dot_zkWeights (by simp [hp]), htrep, map_add, map_smul, map_smul, smul_eq_mul, smul_eq_mul] at hdt
    by_cases hce2 : v (rep ce) = polyEval p r
    swap
    · left
      refine ⟨[(_, r), (_, w0)], _, w1, _, rfl, ?_⟩
      rw [List.length_cons, zkBad, seqB, if_pos (by simp)]
      simp only [zkRoundBad, ptR, pts_append, pts_cpoint, pts_nil, List.reverse_append, List.reverse_cons,
        List.reverse_nil, List.nil_append, List.cons_append, List.getD_cons_zero, List.getD_cons_succ,
        Set.mem_setOf_eq, ← hp]
      exact ⟨hce2, by linear_combination hdt⟩
    by_cases hcl : v (rep claim) = polyEval p 0 + polyEval p 1
    swap
    · left
      refine ⟨[(_, r)], _, w0, _, rfl, ?_⟩
      rw [List.length_cons, zkBad, seqB, if_pos (by simp)]
      simp only [zkRoundBad, ptR, pts_append, pts_cpoint, pts_nil, List.reverse_append, List.reverse_cons,
        List.reverse_nil, List.nil_append, List.cons_append, List.getD_cons_zero, List.getD_cons_succ,
        Set.mem_setOf_eq, ← hp]
      refine ⟨hcl, hce2, ?_⟩
      rw [hce2] at hdt
      have : w0 * (v (rep claim) - (polyEval p 0 + polyEval p 1)) = 0 := by linear_combination hdt
      exact (mul_eq_zero.1 this).resolve_right (sub_ne_zero.2 hcl)
    by_cases hpr : polyEval p r = cubeSum cps.length f [r]
    · left
      refine ⟨[], _, r, _, rfl, ?_⟩
      rw [List.length_cons, zkBad, seqB, if_pos (by simp)]
      simp only [zkRoundBad, ptR, pts_append, pts_cpoint, pts_nil, List.reverse_append, List.reverse_cons,
        List.reverse_nil, List.nil_append, List.cons_append, List.getD_cons_zero, List.getD_cons_succ,
        Set.mem_setOf_eq, ← hp]
      refine ⟨?_, hpr⟩
      by_contra hall
      push Not at hall
      apply hne
      rw [hcl, hall, hall, List.length_cons, cubeSum_succ]; simp
    · rcases himp (by rw [cubeSum_cons, hce2]; exact hpr) with hh' | hh'
      · left
        have := Hit.right (n := 4) (B1 := zkRoundBad v x fun y => cubeSum cps.length f [y])
          (B2 := fun h => zkBad v x cps.length fun l => f ((chs h).getD 0 0 :: l))
          (Rs := [(cur ++ [Msg.point "comm_poly" (rep cp)], r),
            ([Msg.point "comm_claim_per_round" (rep claim), Msg.point "comm_eval" (rep ce)], w0), ([], w1),
            (ms, E.hash t4)]) (Rs' := Rs) rfl hh'
        exact this
      · exact .inr hh'

end Spartan
