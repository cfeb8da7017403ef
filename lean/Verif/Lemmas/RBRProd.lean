import Verif.Lemmas.RBRMain
import Verif.Lemmas.ProductTree

/-! Round-by-round soundness of the plain sum-check and of the batched product proof. -/

set_option linter.unusedSectionVars false

namespace Spartan
open Spec Polynomial
variable {F G P M : Type} [Field F] [AddCommGroup G] [Module F G] [AddCommGroup M] [Module F M]
  [DecidableEq F] [DecidableEq P] [DecidableEq G]

/-! ### more on segments -/

section
variable {E : Env F G P} {rep : P → M} {tr t t' : Tr F P} {cur c c' : List (Msg F M)}
  {Rs Rs' : List (Round F M)}

theorem Seg.scalar (h : Seg E rep tr cur Rs t c) (l : String) (x : F) :
    Seg E rep tr cur Rs (t.scalar l x) (c ++ [.scalar l x]) := by
  simpa [Tr.scalar, mapPt] using h.trans (Rs' := []) ⟨[.scalar l x], rfl, rfl⟩

theorem Seg.u64 (h : Seg E rep tr cur Rs t c) (l : String) (n : Nat) :
    Seg E rep tr cur Rs (t ++ [.u64 l n]) (c ++ [.u64 l n]) := by
  simpa [mapPt] using h.trans (Rs' := []) ⟨[.u64 l n], rfl, rfl⟩

@[simp] theorem scs_scalar (l : String) (x : F) : scs [(.scalar l x : Msg F M)] = [x] := rfl
@[simp] theorem pts_scalar (l : String) (x : F) : pts [(.scalar l x : Msg F M)] = [] := rfl
@[simp] theorem scs_cscalar (l : String) (x : F) (ms : List (Msg F M)) :
    scs (.scalar l x :: ms) = x :: scs ms := rfl
@[simp] theorem pts_cscalar (l : String) (x : F) (ms : List (Msg F M)) :
    pts (.scalar l x :: ms) = pts ms := rfl
@[simp] theorem scs_cu64 (l : String) (n : Nat) (ms : List (Msg F M)) :
    scs (.u64 l n :: ms) = scs ms := rfl
@[simp] theorem pts_cu64 (l : String) (n : Nat) (ms : List (Msg F M)) :
    pts (.u64 l n :: ms) = pts ms := rfl
@[simp] theorem scs_u64 (l : String) (n : Nat) : scs [(.u64 l n : Msg F M)] = [] := rfl
@[simp] theorem pts_u64 (l : String) (n : Nat) : pts [(.u64 l n : Msg F M)] = [] := rfl

/-- Two lists, interleaved. -/
def ilv : List F → List F → List F
  | a :: as, b :: bs => a :: b :: ilv as bs
  | _, _ => []

/-- Three lists, interleaved. -/
def ilv3 : List F → List F → List F → List F
  | a :: as, b :: bs, c :: cs => a :: b :: c :: ilv3 as bs cs
  | _, _, _ => []

theorem Seg.pairs : ∀ (L R : List F) {t : Tr F P} {c : List (Msg F M)}, Seg E rep tr cur Rs t c →
    ∃ c', Seg E rep tr cur Rs (appendPairs t L R) c' ∧ scs c' = scs c ++ ilv L R ∧ pts c' = pts c
  | a :: L, b :: R, t, c, h => by
    obtain ⟨c', h1, h2, h3⟩ := Seg.pairs L R ((h.scalar "claim_prod_left" a).scalar "claim_prod_right" b)
    exact ⟨c', h1, by rw [h2]; simp [ilv], by rw [h3]; simp⟩
  | [], R, t, c, h => ⟨c, by simpa [appendPairs] using h, by simp [ilv], rfl⟩
  | a :: L, [], t, c, h => ⟨c, by simpa [appendPairs] using h, by simp [ilv], rfl⟩

theorem Seg.triples : ∀ (L R W : List F) {t : Tr F P} {c : List (Msg F M)}, Seg E rep tr cur Rs t c →
    ∃ c', Seg E rep tr cur Rs (appendTriples t L R W) c' ∧ scs c' = scs c ++ ilv3 L R W ∧ pts c' = pts c
  | a :: L, b :: R, w :: W, t, c, h => by
    obtain ⟨c', h1, h2, h3⟩ := Seg.triples L R W
      (((h.scalar "claim_dotp_left" a).scalar "claim_dotp_right" b).scalar "claim_dotp_weight" w)
    exact ⟨c', h1, by rw [h2]; simp [ilv3], by rw [h3]; simp⟩
  | [], R, W, t, c, h => ⟨c, by simpa [appendTriples] using h, by simp [ilv3], rfl⟩
  | a :: L, [], W, t, c, h => ⟨c, by simpa [appendTriples] using h, by simp [ilv3], rfl⟩
  | a :: L, b :: R, [], t, c, h => ⟨c, by simpa [appendTriples] using h, by simp [ilv3], rfl⟩

end

theorem ilv_length : ∀ {L R : List F}, L.length = R.length → (ilv L R).length = 2 * L.length
  | [], [], _ => rfl
  | _ :: L, _ :: R, h => by simp [ilv, ilv_length (L := L) (R := R) (by simpa using h)]; omega
  | [], _ :: _, h => by simp at h
  | _ :: _, [], h => by simp at h

theorem ilv_getD : ∀ {L R : List F} (T : List F) {i : Nat}, L.length = R.length → i < L.length →
    (ilv L R ++ T).getD (2 * i) 0 = L.getD i 0 ∧ (ilv L R ++ T).getD (2 * i + 1) 0 = R.getD i 0
  | _ :: L, _ :: R, T, 0, h, _ => by simp [ilv]
  | _ :: L, _ :: R, T, i + 1, h, hi => by
    have := ilv_getD (L := L) (R := R) T (i := i) (by simpa using h) (by simpa using hi)
    simpa [ilv, Nat.mul_add] using this
  | [], _, _, _, _, hi => by simp at hi
  | _ :: _, [], _, _, h, _ => by simp at h

theorem ilv3_getD : ∀ {L R W : List F} {i : Nat}, L.length ≤ R.length → L.length ≤ W.length → i < L.length →
    (ilv3 L R W).getD (3 * i) 0 = L.getD i 0 ∧ (ilv3 L R W).getD (3 * i + 1) 0 = R.getD i 0 ∧
      (ilv3 L R W).getD (3 * i + 2) 0 = W.getD i 0
  | _ :: L, _ :: R, _ :: W, 0, _, _, _ => by simp [ilv3]
  | _ :: L, _ :: R, _ :: W, i + 1, h, h', hi => by
    have := ilv3_getD (L := L) (R := R) (W := W) (i := i) (by simpa using h) (by simpa using h')
      (by simpa using hi)
    simpa [ilv3, Nat.mul_add] using this
  | [], _, _, _, _, _, hi => by simp at hi
  | _ :: _, [], _, _, h, _, _ => by simp at h
  | _ :: _, _ :: _, [], _, _, h, _ => by simp at h

/-! ### plain sum-check -/

/-- The last `c` scalars of a message. -/
def lastS (c : Nat) (ms : List (Msg F M)) : List F := (scs ms).drop ((scs ms).length - c)

/-- Unfavourable challenges of a round: the polynomial sent differs from the partial sum and agrees with
it at the challenge. -/
def scSet (d k : Nat) (f : List F → F) (ms : List (Msg F M)) : Set F :=
  {r | (∃ x, polyEval (lastS (d + 1) ms) x ≠ cubeSum k f [x]) ∧
    polyEval (lastS (d + 1) ms) r = cubeSum k f [r]}

/-- Unfavourable challenges of the sum-check for `f`, a function of `k` variables. -/
def scBad (d : Nat) : Nat → (List F → F) → Bads F M
  | 0, _ => noneB
  | k + 1, f => seqB 1 (oneB (scSet d k f)) fun h => scBad d k fun l => f ((chs h).getD 0 0 :: l)

theorem exists_poly_of_list' (cs : List F) {d : Nat} (h : cs.length ≤ d + 1) :
    ∃ q : F[X], q.natDegree ≤ d ∧ ∀ x, q.eval x = polyEval cs x := by
  refine ⟨∑ i ∈ Finset.range cs.length, C (cs.getD i 0) * X ^ i, ?_, fun x => ?_⟩
  · apply natDegree_sum_le_of_forall_le
    intro i hi
    rw [Finset.mem_range] at hi
    exact (natDegree_C_mul_X_pow_le _ _).trans (by omega)
  · rw [eval_finsetSum]; simp [polyEval]

theorem scBad_small (d : Nat) : ∀ (k : Nat) (f : List F → F), IndivDegree k d f →
    Small d (scBad d k f : Bads F M)
  | 0, _, _ => noneB_small d
  | k + 1, f, hf => by
    obtain ⟨q, hq, hqe⟩ := exists_partial hf
    refine Small.seq (fun _ ms => ?_) fun h => scBad_small d k _ (indivDegree_cons hf _)
    obtain ⟨p, hp, hpe⟩ := exists_poly_of_list' (lastS (d + 1) ms) (d := d) (by simp [lastS]; omega)
    by_cases h : ∃ x, polyEval (lastS (d + 1) ms) x ≠ cubeSum k f [x]
    · refine AtMost.roots (q := p - q) ?_ ((natDegree_sub_le _ _).trans (max_le hp hq)) ?_
      · intro h0
        obtain ⟨y, hy⟩ := h
        apply hy
        rw [← hpe, ← hqe, sub_eq_zero.1 h0]
      · rintro r ⟨-, hr⟩
        rw [eval_sub, hpe, hqe, hr, sub_self]
    · exact (AtMost.empty d).mono le_rfl (fun c hc => absurd hc.1 h)

theorem sc_rbr {E : Env F G P} {rep : P → M} {d : Nat} :
    ∀ (cps : List (CompressedUniPoly F)) (f : List F → F) (e e' : F) (rs : List F) (tr tr' : Tr F P)
      (cur : List (Msg F M)), scVerifyLoop E d cps e tr = .ok (e', rs, tr') →
    ∃ Rs, Seg E rep tr cur Rs tr' (if cps = [] then cur else []) ∧ Rs.length = cps.length ∧ rs = chs Rs ∧
      (e ≠ cubeSum cps.length f [] → Hit (scBad d cps.length f) Rs ∨ e' ≠ f rs)
  | [], f, e, e', rs, tr, tr', cur, h => by
    cases h
    exact ⟨[], Seg.refl E rep tr cur, rfl, rfl, fun hne => .inr (by rwa [List.length_nil, cubeSum_zero] at hne)⟩
  | cp :: cps, f, e, e', rs, tr, tr', cur, h => by
    obtain ⟨r, e1, tr1, rs', rfl, h1, h2⟩ := scVerifyLoop_cons_ok h
    obtain ⟨hl, -, hs, ht, hr, he⟩ := scVerifyRound_ok h1
    have S := ((Seg.scalarList "coeff" (sentPoly cp e) ((Seg.refl E rep tr cur).bytes "poly"
      "UniPoly_begin")).bytes "poly" "UniPoly_end").chal "challenge_nextround"
    obtain ⟨m, hm⟩ : ∃ m, m = cur ++ [.bytes "poly" "UniPoly_begin"] ++
      ((sentPoly cp e).map (.scalar "coeff") : List (Msg F M)) ++ [.bytes "poly" "UniPoly_end"] := ⟨_, rfl⟩
    change Seg E rep tr cur ([] ++ [(_, E.hash ((⟨sentPoly cp e⟩ : UniPoly F).append "poly" tr ++
      [.chal "challenge_nextround"]))]) ((⟨sentPoly cp e⟩ : UniPoly F).append "poly" tr ++
      [.chal "challenge_nextround"]) [] at S
    rw [← ht, ← hr, ← hm] at S
    obtain ⟨Rs, S2, l2, hrs, H⟩ := sc_rbr (rep := rep) cps (fun l => f (r :: l)) e1 e' rs' tr1 tr' [] h2
    have hlast : lastS (d + 1) m = sentPoly cp e := by
      rw [lastS, hm]
      simp only [scs_append, scs_bytes, List.append_nil, scs_scalars, List.length_append, hl]
      rw [Nat.add_sub_cancel, List.drop_left]
    refine ⟨[(m, r)] ++ Rs, ?_, ?_, ?_, fun hne => ?_⟩
    · have := S.trans S2
      rw [if_neg (by simp)]
      simpa using this
    · simp [l2]
    · simp [chs, hrs]
    · by_cases hx : polyEval (sentPoly cp e) r = cubeSum cps.length f [r]
      · left
        refine Spec.Hit.left rfl (Spec.Hit.one ⟨?_, by rw [hlast]; exact hx⟩)
        rw [hlast]
        by_contra hall
        push Not at hall
        apply hne
        rw [List.length_cons, cubeSum_succ, ← hs, hall, hall]
        rfl
      · rcases H (by rw [he, cubeSum_cons]; exact hx) with hH | hH
        · left
          exact Spec.Hit.right (Rs := [(m, r)]) rfl hH
        · exact .inr hH

/-! ### linear combination of any number of claims -/

/-- Unfavourable coefficients of a combination of errors `d`, not all zero. -/
def linsBad (d : List F) : Bads F M := fun hist _ =>
  {r | d.getD hist.length 0 ≠ 0 ∧ (List.zipWith (· * ·) d (chs hist ++ [r])).sum = 0}

theorem chs_length (Rs : List (Round F M)) : (chs Rs).length = Rs.length := by simp [chs]

theorem zipWith_sum_snoc : ∀ (d cs : List F) (r : F),
    (List.zipWith (· * ·) d (cs ++ [r])).sum = (List.zipWith (· * ·) d cs).sum + d.getD cs.length 0 * r
  | [], cs, r => by simp
  | a :: d, [], r => by simp
  | a :: d, c :: cs, r => by
    simp only [List.cons_append, List.zipWith_cons_cons, List.sum_cons, List.length_cons,
      List.getD_cons_succ, zipWith_sum_snoc d cs r]
    ring

theorem linsBad_small (d : List F) : Small 1 (linsBad d : Bads F M) := by
  intro hist ms
  by_cases h : d.getD hist.length 0 = 0
  · exact (AtMost.empty 1).mono le_rfl fun r hr => absurd h hr.1
  · refine AtMost.linear (a := d.getD hist.length 0) (b := (List.zipWith (· * ·) d (chs hist)).sum) h
      fun r hr => ?_
    have := hr.2
    rw [zipWith_sum_snoc, chs_length] at this
    linear_combination this

theorem lins_hit : ∀ (d : List F) (Rs : List (Round F M)), Rs.length = d.length → (∃ a ∈ d, a ≠ 0) →
    (List.zipWith (· * ·) d (chs Rs)).sum = 0 → Hit (linsBad d) Rs := by
  intro d
  induction d using List.reverseRecOn with
  | nil => rintro _ _ ⟨a, ha, -⟩; simp at ha
  | append_singleton d a ih =>
    intro Rs hl hne h0
    obtain ⟨Rs, ⟨m, c⟩, rfl⟩ : ∃ R x, Rs = R ++ [x] := by
      refine ⟨Rs.dropLast, Rs.getLast (by intro h; rw [h] at hl; simp at hl), ?_⟩
      rw [List.dropLast_append_getLast]
    have hl' : Rs.length = d.length := by simpa using hl
    by_cases ha : a = 0
    · subst ha
      have hne' : ∃ a ∈ d, a ≠ 0 := by
        obtain ⟨b, hb, hb0⟩ := hne
        rcases List.mem_append.1 hb with h | h
        · exact ⟨b, h, hb0⟩
        · exact absurd (by simpa using h) hb0
      have hz : ∀ cs : List F, cs.length ≤ d.length →
          List.zipWith (· * ·) (d ++ [(0 : F)]) cs = List.zipWith (· * ·) d cs := by
        intro cs hcs
        conv_lhs => rw [show cs = cs ++ [] by simp]
        rw [List.zipWith_eq_zipWith_take_min]
        conv_rhs => rw [List.zipWith_eq_zipWith_take_min]
        simp only [List.length_append, List.length_singleton, List.append_nil]
        rw [show min (d.length + 1) cs.length = min d.length cs.length by omega,
          List.take_append_of_le_length (by omega)]
      have h1 : (List.zipWith (· * ·) d (chs Rs)).sum = 0 := by
        rw [← h0]
        simp only [chs, List.map_append, List.map_cons, List.map_nil]
        rw [zipWith_sum_snoc, hz _ (by simp [hl'])]
        simp [hl']
      obtain ⟨hist, ms, x, rest, rfl, hx⟩ := ih Rs hl' hne' h1
      have hlt : hist.length < d.length := by rw [← hl']; simp
      refine ⟨hist, ms, x, rest ++ [(m, c)], by simp, ?_, ?_⟩
      · rw [List.getD_append _ _ _ _ hlt]; exact hx.1
      · rw [hz _ (by simp [chs]; omega)]; exact hx.2
    · refine ⟨Rs, m, c, [], by simp, ?_, ?_⟩
      · rw [List.getD_append_right _ _ _ _ (by omega), hl']; simpa using ha
      · simpa [chs] using h0

/-! ### pairs of claims -/

/-- Unfavourable challenges combining claimed pairs `q.1` which should be `q.2`. -/
def pairSet (Q : List ((F × F) × (F × F))) : Set F :=
  {rl | (∃ q ∈ Q, q.1 ≠ q.2) ∧ ∀ q ∈ Q, q.1.1 + rl * (q.1.2 - q.1.1) = q.2.1 + rl * (q.2.2 - q.2.1)}

theorem pairSet_small (Q : List ((F × F) × (F × F))) : AtMost 1 (pairSet Q) := by
  by_cases h : ∃ q ∈ Q, q.1 ≠ q.2
  swap
  · exact (AtMost.empty 1).mono le_rfl fun r hr => absurd hr.1 h
  obtain ⟨q, hq, hne⟩ := h
  by_cases ha : (q.1.2 - q.1.1) - (q.2.2 - q.2.1) = 0
  · refine (AtMost.empty 1).mono le_rfl fun r hr => hne ?_
    have := hr.2 q hq
    rw [sub_eq_zero.1 ha] at this
    have h1 : q.1.1 = q.2.1 := by linear_combination this
    have h2 : q.1.2 = q.2.2 := by linear_combination ha + h1
    exact Prod.ext h1 h2
  · refine AtMost.linear (b := q.1.1 - q.2.1) ha fun r hr => ?_
    linear_combination hr.2 q hq

/-! ### one layer of the batched product proof -/

/-- The polynomials combined in the sum-check of layer `kk`. -/
def layG (n : Nat) (Ts : List (List F)) (ds : List (List F × List F × List F)) (kk : Nat) (rand : List F) :
    List (List F → F) :=
  (Ts.map fun T l => mle (tabL n T kk) l * mle (tabR n T kk) l * mle (eqEvals rand) l) ++
    if kk = 0 then ds.map fun d l => mle d.1 l * mle d.2.1 l * mle d.2.2 l else []

/-- Their combination. -/
def layF (gs : List (List F → F)) (coeffs l : List F) : F :=
  (List.zipWith (fun g c => g l * c) gs coeffs).sum

/-- The values the claims of layer `kk + 1` should have. -/
def layTrue (n : Nat) (Ts : List (List F)) (ds : List (List F × List F × List F)) (kk : Nat)
    (rand : List F) : List F :=
  (Ts.map fun T => mle (tab T (kk + 1)) rand) ++ if kk = 0 then ds.map (triSum (n - 1)) else []

/-- The pairs of claims sent at the end of layer `kk` with the values they should have. -/
def layQ (n : Nat) (Ts : List (List F)) (ds : List (List F × List F × List F)) (kk : Nat) (rp s : List F) :
    List ((F × F) × (F × F)) :=
  ((List.range Ts.length).map fun i => ((s.getD (2 * i) 0, s.getD (2 * i + 1) 0),
    (mle (tabL n (Ts.getD i []) kk) rp, mle (tabR n (Ts.getD i []) kk) rp))) ++
  if kk = 0 then (List.range (ds.length / 2)).flatMap fun i =>
    let a := ds.getD (2 * i) ([], [], [])
    let b := ds.getD (2 * i + 1) ([], [], [])
    let o := 2 * Ts.length + 6 * i
    [((s.getD o 0, s.getD (o + 3) 0), (mle a.1 rp, mle b.1 rp)),
     ((s.getD (o + 1) 0, s.getD (o + 4) 0), (mle a.2.1 rp, mle b.2.1 rp)),
     ((s.getD (o + 2) 0, s.getD (o + 5) 0), (mle a.2.2 rp, mle b.2.2 rp))]
  else []

/-- The claims of the next layer. -/
def readNext (m : Nat) (rl : F) (s : List F) : List F :=
  (List.range m).map fun i => s.getD (2 * i) 0 + rl * (s.getD (2 * i + 1) 0 - s.getD (2 * i) 0)

/-- Unfavourable challenges of the layers `kk - 1, …, 0`. -/
def prodBBad (n : Nat) (Ts : List (List F)) (ds : List (List F × List F × List F)) (cd : List F) :
    Nat → List F → List F → Bads F M
  | 0, _, _ => noneB
  | kk + 1, claims, rand =>
    seqB (Ts.length + if kk = 0 then ds.length else 0)
      (linsBad (List.zipWith (· - ·) (if kk = 0 then claims ++ cd else claims) (layTrue n Ts ds kk rand)))
      fun h1 =>
    seqB (n - 1 - kk) (scBad 3 (n - 1 - kk) (layF (layG n Ts ds kk rand) (chs h1))) fun h2 =>
    seqB 1 (oneB fun ms => pairSet (layQ n Ts ds kk (chs h2) (scs ms))) fun h3 =>
    prodBBad n Ts ds cd kk (readNext Ts.length ((chs h3).getD 0 0) (scs (h3.headD ([], 0)).1))
      ((chs h3).getD 0 0 :: chs h2)

theorem indiv_zipSum {n d : Nat} : ∀ (gs : List (List F → F)) (cs : List F), (∀ g ∈ gs, IndivDegree n d g) →
    IndivDegree n d (layF gs cs)
  | [], cs, _ => fun pre post _ => ⟨0, by simp, fun x => by simp [layF]⟩
  | g :: gs, [], _ => fun pre post _ => ⟨0, by simp, fun x => by simp [layF]⟩
  | g :: gs, c :: cs, h => fun pre post hl => by
    obtain ⟨p, hp, hpe⟩ := h g (by simp) pre post hl
    obtain ⟨q, hq, hqe⟩ := indiv_zipSum gs cs (fun x hx => h x (by simp [hx])) pre post hl
    refine ⟨p * C c + q, (natDegree_add_le _ _).trans (max_le ?_ hq), fun x => ?_⟩
    · exact (natDegree_mul_C_le _ _).trans hp
    · rw [eval_add, eval_mul, eval_C, ← hpe, ← hqe]
      simp [layF]

theorem cubeSum_layF (k : Nat) : ∀ (gs : List (List F → F)) (cs : List F),
    cubeSum k (layF gs cs) [] = (List.zipWith (· * ·) (gs.map fun g => cubeSum k g []) cs).sum
  | [], cs => by simp [cubeSum, layF]
  | g :: gs, [] => by simp [cubeSum, layF]
  | g :: gs, c :: cs => by
    have := cubeSum_layF k gs cs
    simp only [List.map_cons, List.zipWith_cons_cons, List.sum_cons, ← this]
    unfold cubeSum
    rw [Finset.sum_mul, ← Finset.sum_add_distrib]
    refine Finset.sum_congr rfl fun i _ => by simp [layF]

theorem layG_indiv (n : Nat) (Ts : List (List F)) (ds : List (List F × List F × List F)) (kk : Nat)
    (rand : List F) (N : Nat) : ∀ g ∈ layG n Ts ds kk rand, IndivDegree N 3 g := by
  have tri : ∀ a b c : List F, IndivDegree N 3 fun l => mle a l * mle b l * mle c l := fun a b c =>
    indiv_mul (d := 2) (e := 1) (indiv_mul (d := 1) (e := 1) (mle_indiv _ _) (mle_indiv _ _)) (mle_indiv _ _)
  intro g hg
  rcases List.mem_append.1 hg with h | h
  · obtain ⟨T, -, rfl⟩ := List.mem_map.1 h
    exact tri _ _ _
  · split at h
    · obtain ⟨T, -, rfl⟩ := List.mem_map.1 h
      exact tri _ _ _
    · simp at h

theorem layG_sum {n : Nat} {Ts : List (List F)} (hT : ∀ T ∈ Ts, T.length = 2 ^ n)
    {ds : List (List F × List F × List F)}
    {kk : Nat} (hk : kk < n) {rand : List F} (hr : rand.length = n - 1 - kk) :
    ((layG n Ts ds kk rand).map fun g => cubeSum (n - 1 - kk) g []) = layTrue n Ts ds kk rand := by
  have ev : ∀ (a b c : List F), cubeSum (n - 1 - kk) (fun l => mle a l * mle b l * mle c l) [] =
      ∑ i ∈ Finset.range (2 ^ (n - 1 - kk)), a.getD i 0 * b.getD i 0 * c.getD i 0 := by
    intro a b c
    unfold cubeSum
    refine Finset.sum_congr rfl fun i hi => ?_
    have hi := Finset.mem_range.1 hi
    simp only [List.nil_append]
    rw [mle_at_bool _ hi, mle_at_bool _ hi, mle_at_bool _ hi]
  unfold layG layTrue
  rw [List.map_append, List.map_map]
  congr 1
  · apply List.map_congr_left
    intro T hT'
    rw [Function.comp_apply, ev, ← layer_sum (hT T hT') hk hr]
    rfl
  · by_cases h0 : kk = 0
    · subst h0
      rw [if_pos rfl, if_pos rfl, List.map_map]
      apply List.map_congr_left
      intro d _
      rw [Function.comp_apply, ev]
      rfl
    · rw [if_neg h0, if_neg h0]; rfl

theorem prodBBad_small (n : Nat) (Ts : List (List F)) (ds : List (List F × List F × List F)) (cd : List F) :
    ∀ (kk : Nat) (claims rand : List F), Small 3 (prodBBad n Ts ds cd kk claims rand : Bads F M)
  | 0, _, _ => noneB_small 3
  | kk + 1, claims, rand => by
    refine Small.seq ((linsBad_small _).mono (by omega)) fun h1 => ?_
    refine Small.seq (scBad_small 3 _ _ (indiv_zipSum _ _ (layG_indiv n Ts ds kk rand _))) fun h2 => ?_
    refine Small.seq (fun _ ms => (pairSet_small _).mono (by omega) le_rfl) fun h3 => ?_
    exact prodBBad_small n Ts ds cd kk _ _

theorem prodBLoop_cons_ok {E : Env F G P} {m : Nat} {cd : List F} {pf : ProdProofBatched F}
    {lp : LayerProofBatched F} {lps : List (LayerProofBatched F)} {k : Nat} {claims dcl rand : List F}
    {tr tr' : Tr F P} {c' d' rand' : List F}
    (h : prodBVerifyLoop E m cd pf (lp :: lps) k claims dcl rand tr = .ok (c', d', rand', tr')) :
    ∃ cl coeffs tr0 claimLast rp tr1 eq tr2, cl = (if lps.isEmpty then claims ++ cd else claims) ∧
      E.challengeVec tr "rand_coeffs_next_layer" cl.length = (coeffs, tr0) ∧ lp.proof.length = k ∧
      scVerifyLoop E 3 lp.proof (List.zipWith (· * ·) cl coeffs).sum tr0 = .ok (claimLast, rp, tr1) ∧
      lp.left.length = m ∧ lp.right.length = m ∧ eqEvaluate rand rp = .ok eq ∧ m ≤ coeffs.length ∧
      (lps.isEmpty → pf.dotpL.length ≤ pf.dotpR.length ∧ pf.dotpL.length ≤ pf.dotpW.length ∧
          m + pf.dotpL.length ≤ coeffs.length ∧ 2 * (cd.length / 2) ≤ pf.dotpL.length) ∧
      (List.zipWith (fun c (lr : F × F) => c * (lr.1 * lr.2 * eq)) coeffs
        (List.zip lp.left lp.right)).sum + (if lps.isEmpty then
          (List.zipWith (fun c (x : F × F × F) => c * x.1 * x.2.1 * x.2.2) (coeffs.drop m)
          (List.zip pf.dotpL (List.zip pf.dotpR pf.dotpW))).sum else 0) = claimLast ∧
      tr2 = (if lps.isEmpty then appendTriples (appendPairs tr1 lp.left lp.right) pf.dotpL pf.dotpR pf.dotpW
        else appendPairs tr1 lp.left lp.right) ∧
      prodBVerifyLoop E m cd pf lps (k + 1)
        (nextClaims (E.hash (tr2 ++ [.chal "challenge_r_layer"])) lp.left lp.right)
        (if lps.isEmpty then dotpNext (E.hash (tr2 ++ [.chal "challenge_r_layer"])) (cd.length / 2)
          pf.dotpL pf.dotpR pf.dotpW else dcl)
        (E.hash (tr2 ++ [.chal "challenge_r_layer"]) :: rp) (tr2 ++ [.chal "challenge_r_layer"]) =
        .ok (c', d', rand', tr') := by
  unfold prodBVerifyLoop at h
  simp only at h
  obtain ⟨cl, hcl⟩ : ∃ cl, cl = (if lps.isEmpty then claims ++ cd else claims) := ⟨_, rfl⟩
  rw [← hcl] at h
  obtain ⟨coeffs, tr0, hcv⟩ : ∃ a b, E.challengeVec tr "rand_coeffs_next_layer" cl.length = (a, b) :=
    ⟨_, _, rfl⟩
  simp only [hcv, Env.challenge] at h
  obtain ⟨⟨claimLast, rp, tr1⟩, hsc, h⟩ := bind_ok h
  obtain ⟨_, hl1, h⟩ := bind_ok h
  obtain ⟨_, hl2, h⟩ := bind_ok h
  obtain ⟨eq, heq, h⟩ := bind_ok h
  obtain ⟨_, hm, h⟩ := bind_ok h
  unfold scVerify at hsc
  obtain ⟨_, hn, hsc⟩ := bind_ok hsc
  have hn := check_ok hn
  have hl1 := check_ok hl1
  have hl2 := check_ok hl2
  have hm := check_ok hm
  by_cases he : lps.isEmpty = true
  · simp only [he, if_true] at h hcl ⊢
    obtain ⟨_, hd1, h⟩ := bind_ok h
    rw [pure_ok, ok_bind] at h
    simp only at h
    obtain ⟨_, hs, h⟩ := bind_ok h
    obtain ⟨_, hd3, h⟩ := bind_ok h
    rw [pure_ok, ok_bind] at h
    obtain ⟨q1, q2, q3⟩ := check_ok hd1
    exact ⟨cl, coeffs, tr0, claimLast, rp, tr1, eq, _, hcl, hcv, hn, hsc, hl1, hl2, heq, hm,
      fun _ => ⟨q1, q2, q3, (check_ok hd3).1⟩, check_ok hs, rfl, h⟩
  · simp only [he, Bool.false_eq_true, if_false] at h hcl ⊢
    rw [pure_ok, ok_bind] at h
    simp only at h
    obtain ⟨_, hs, h⟩ := bind_ok h
    rw [pure_ok, ok_bind] at h
    exact ⟨cl, coeffs, tr0, claimLast, rp, tr1, eq, _, hcl, hcv, hn, hsc, hl1, hl2, heq, hm,
      fun h => absurd h (by simp), check_ok hs, rfl, h⟩

theorem flatMap3_inj {α : Type} : ∀ (k : Nat) (a b c a' b' c' : Nat → α),
    ((List.range k).flatMap fun i => [a i, b i, c i]) = ((List.range k).flatMap fun i => [a' i, b' i, c' i]) →
    ∀ i < k, a i = a' i ∧ b i = b' i ∧ c i = c' i
  | 0, _, _, _, _, _, _, _, i, hi => absurd hi (by omega)
  | k + 1, a, b, c, a', b', c', h, i, hi => by
    rw [List.range_succ, List.flatMap_append, List.flatMap_append] at h
    obtain ⟨h1, h2⟩ := List.append_inj h (by simp)
    by_cases hk : i = k
    · subst hk
      simpa using h2
    · exact flatMap3_inj k a b c a' b' c' h1 i (by omega)

theorem eq_map_of_getD {α β : Type} (Ts : List α) (t0 : α) (f : α → β) (b0 : β) (L : List β) (hl : L.length = Ts.length)
    (h : ∀ i < Ts.length, L.getD i b0 = f (Ts.getD i t0)) : L = Ts.map f := by
  apply List.ext_getElem (by simpa using hl)
  intro i h1 h2
  have := h i (by omega)
  rw [List.getD_eq_getElem _ _ h1, List.getD_eq_getElem _ _ (by omega)] at this
  simpa using this

theorem zipWith_ne {a b : List F} (hl : a.length = b.length) (h : a ≠ b) :
    ∃ x ∈ List.zipWith (· - ·) a b, x ≠ 0 := by
  by_contra hc
  push Not at hc
  apply h
  apply List.ext_getElem hl
  intro i h1 h2
  have := hc (a[i] - b[i]) (by
    rw [List.mem_iff_getElem]
    exact ⟨i, by simp; omega, by simp⟩)
  exact sub_eq_zero.1 this

theorem zipWith_sub_sum : ∀ (a b c : List F), a.length = b.length →
    (List.zipWith (· * ·) (List.zipWith (· - ·) a b) c).sum =
      (List.zipWith (· * ·) a c).sum - (List.zipWith (· * ·) b c).sum
  | [], [], c, _ => by simp
  | x :: a, y :: b, [], _ => by simp
  | x :: a, y :: b, z :: c, h => by
    simp only [List.zipWith_cons_cons, List.sum_cons, zipWith_sub_sum a b c (by simpa using h)]
    ring
  | [], _ :: _, _, h => by simp at h
  | _ :: _, [], _, h => by simp at h

/-- The scalars sent at the end of a layer. -/
def layS (kk : Nat) (L R dL dR dW : List F) : List F := ilv L R ++ if kk = 0 then ilv3 dL dR dW else []

section layer
variable {n : Nat} {Ts : List (List F)} {ds : List (List F × List F × List F)} {kk : Nat}
  {L R dL dR dW : List F}

theorem layQ_prod (rp : List F) (hL : L.length = Ts.length) (hR : R.length = Ts.length)
    {i : Nat} (hi : i < Ts.length) :
    ((L.getD i 0, R.getD i 0), (mle (tabL n (Ts.getD i []) kk) rp, mle (tabR n (Ts.getD i []) kk) rp)) ∈
      layQ n Ts ds kk rp (layS kk L R dL dR dW) := by
  refine List.mem_append_left _ (List.mem_map.2 ⟨i, List.mem_range.2 hi, ?_⟩)
  obtain ⟨e1, e2⟩ := ilv_getD (L := L) (R := R) (if kk = 0 then ilv3 dL dR dW else [])
    (hL.trans hR.symm) (by rw [hL]; exact hi)
  rw [layS, e1, e2]

theorem layS_dot (hL : L.length = Ts.length) (hR : R.length = Ts.length)
    (hdR : dL.length ≤ dR.length) (hdW : dL.length ≤ dW.length) {i : Nat} (hi : i < dL.length) :
    (layS 0 L R dL dR dW).getD (2 * Ts.length + 3 * i) 0 = dL.getD i 0 ∧
    (layS 0 L R dL dR dW).getD (2 * Ts.length + 3 * i + 1) 0 = dR.getD i 0 ∧
    (layS 0 L R dL dR dW).getD (2 * Ts.length + 3 * i + 2) 0 = dW.getD i 0 := by
  have hl : (ilv L R).length = 2 * Ts.length := by rw [ilv_length (hL.trans hR.symm), hL]
  obtain ⟨e1, e2, e3⟩ := ilv3_getD hdR hdW hi
  rw [layS, if_pos rfl, List.getD_append_right _ _ _ _ (by omega), List.getD_append_right _ _ _ _ (by omega),
    List.getD_append_right _ _ _ _ (by omega), hl]
  refine ⟨?_, ?_, ?_⟩
  · rw [← e1]; congr 1; omega
  · rw [← e2]; congr 1; omega
  · rw [← e3]; congr 1; omega

theorem layQ_dot (rp : List F) (hL : L.length = Ts.length) (hR : R.length = Ts.length)
    (hdR : dL.length ≤ dR.length) (hdW : dL.length ≤ dW.length) (hD : dL.length = ds.length) {i : Nat}
    (hi : i < ds.length / 2) :
    let a := ds.getD (2 * i) ([], [], [])
    let b := ds.getD (2 * i + 1) ([], [], [])
    ((dL.getD (2 * i) 0, dL.getD (2 * i + 1) 0), (mle a.1 rp, mle b.1 rp)) ∈
        layQ n Ts ds 0 rp (layS 0 L R dL dR dW) ∧
      ((dR.getD (2 * i) 0, dR.getD (2 * i + 1) 0), (mle a.2.1 rp, mle b.2.1 rp)) ∈
        layQ n Ts ds 0 rp (layS 0 L R dL dR dW) ∧
      ((dW.getD (2 * i) 0, dW.getD (2 * i + 1) 0), (mle a.2.2 rp, mle b.2.2 rp)) ∈
        layQ n Ts ds 0 rp (layS 0 L R dL dR dW) := by
  intro a b
  obtain ⟨a1, a2, a3⟩ := layS_dot hL hR hdR hdW (i := 2 * i) (by omega)
  obtain ⟨b1, b2, b3⟩ := layS_dot hL hR hdR hdW (i := 2 * i + 1) (by omega)
  have e : 2 * Ts.length + 3 * (2 * i) = 2 * Ts.length + 6 * i := by omega
  have e' : 2 * Ts.length + 3 * (2 * i + 1) = 2 * Ts.length + 6 * i + 3 := by omega
  rw [e] at a1 a2 a3
  rw [e'] at b1 b2 b3
  have hm : ∀ q, q ∈ [((dL.getD (2 * i) 0, dL.getD (2 * i + 1) 0), (mle a.1 rp, mle b.1 rp)),
      ((dR.getD (2 * i) 0, dR.getD (2 * i + 1) 0), (mle a.2.1 rp, mle b.2.1 rp)),
      ((dW.getD (2 * i) 0, dW.getD (2 * i + 1) 0), (mle a.2.2 rp, mle b.2.2 rp))] →
      q ∈ layQ n Ts ds 0 rp (layS 0 L R dL dR dW) := by
    intro q hq
    refine List.mem_append_right _ ?_
    rw [if_pos rfl, List.mem_flatMap]
    refine ⟨i, List.mem_range.2 hi, ?_⟩
    simp only
    rw [a1, a2, a3, b1, b2, b3]
    exact hq
  exact ⟨hm _ (by simp), hm _ (by simp), hm _ (by simp)⟩

theorem lay_all {rp rand coeffs : List F} (hL : L.length = Ts.length) (hR : R.length = Ts.length)
    (hd : kk = 0 → dL.length ≤ dR.length ∧ dL.length ≤ dW.length ∧ dL.length = ds.length)
    (hev : ds.length % 2 = 0)
    (hq : ∀ q ∈ layQ n Ts ds kk rp (layS kk L R dL dR dW), q.1 = q.2) :
    (List.zipWith (fun c (lr : F × F) => c * (lr.1 * lr.2 * mle (eqEvals rand) rp)) coeffs
      (List.zip L R)).sum + (if kk = 0 then
        (List.zipWith (fun c (x : F × F × F) => c * x.1 * x.2.1 * x.2.2) (coeffs.drop Ts.length)
        (List.zip dL (List.zip dR dW))).sum else 0) = layF (layG n Ts ds kk rand) coeffs rp := by
  have h1 : L = Ts.map fun T => mle (tabL n T kk) rp := eq_map_of_getD Ts [] _ 0 L hL fun i hi => by
    have := hq _ (layQ_prod (n := n) (ds := ds) (kk := kk) (dL := dL) (dR := dR) (dW := dW) rp hL hR hi)
    exact (Prod.mk.inj this).1
  have h2 : R = Ts.map fun T => mle (tabR n T kk) rp := eq_map_of_getD Ts [] _ 0 R hR fun i hi => by
    have := hq _ (layQ_prod (n := n) (ds := ds) (kk := kk) (dL := dL) (dR := dR) (dW := dW) rp hL hR hi)
    exact (Prod.mk.inj this).2
  have hsplit := batchAt_split rp (Ts.map fun T => (tabL n T kk, tabR n T kk)) (eqEvals rand)
    (if kk = 0 then ds else []) coeffs
  have hF : layF (layG n Ts ds kk rand) coeffs rp = batchAt combProd rp
      (Ts.map fun T => (tabL n T kk, tabR n T kk)) (eqEvals rand) (if kk = 0 then ds else []) coeffs := by
    unfold layF batchAt layG
    have : ∀ (gs : List (List F → F)), List.zipWith (fun g c => g rp * c) gs coeffs =
        List.zipWith (fun s c => s * c) (gs.map fun g => g rp) coeffs := by
      intro gs; rw [List.zipWith_map_left]
    rw [this, List.map_append, List.map_map, List.map_map]
    congr 3
    by_cases h0 : kk = 0
    · rw [if_pos h0, if_pos h0, List.map_map]; rfl
    · rw [if_neg h0, if_neg h0]; rfl
  rw [hF, ← hsplit, List.length_map, List.map_map, List.map_map]
  have e1 : ((fun p : List F × List F => mle p.1 rp) ∘ fun T => (tabL n T kk, tabR n T kk)) =
    fun T => mle (tabL n T kk) rp := rfl
  have e2 : ((fun p : List F × List F => mle p.2 rp) ∘ fun T => (tabL n T kk, tabR n T kk)) =
    fun T => mle (tabR n T kk) rp := rfl
  rw [e1, e2, ← h1, ← h2]
  congr 1
  by_cases h0 : kk = 0
  · subst h0
    obtain ⟨d1, d2, d3⟩ := hd rfl
    rw [if_pos rfl, if_pos rfl]
    have key : ∀ (c : List F) (f : List F × List F × List F → F), ds.length ≤ c.length →
        (∀ i < ds.length / 2, (c.getD (2 * i) 0, c.getD (2 * i + 1) 0) =
          (f (ds.getD (2 * i) ([], [], [])), f (ds.getD (2 * i + 1) ([], [], [])))) →
        c.take ds.length = ds.map f := by
      intro c f hc h
      refine eq_map_of_getD ds ([], [], []) f 0 _ (by simp [hc]) fun i hi => ?_
      rw [List.getD_eq_getElem _ _ (by simp; omega), List.getElem_take, ← List.getD_eq_getElem c 0 (by omega)]
      rcases Nat.mod_two_eq_zero_or_one i with hi2 | hi2
      · have := (Prod.mk.inj (h (i / 2) (by omega))).1
        rwa [show 2 * (i / 2) = i by omega] at this
      · have := (Prod.mk.inj (h (i / 2) (by omega))).2
        rwa [show 2 * (i / 2) + 1 = i by omega] at this
    have k1 := key dL (fun p => mle p.1 rp) (by omega) fun i hi => hq _
      (layQ_dot (n := n) (ds := ds) rp hL hR d1 d2 d3 hi).1
    have k2 := key dR (fun p => mle p.2.1 rp) (by omega) fun i hi => hq _
      (layQ_dot (n := n) (ds := ds) rp hL hR d1 d2 d3 hi).2.1
    have k3 := key dW (fun p => mle p.2.2 rp) (by omega) fun i hi => hq _
      (layQ_dot (n := n) (ds := ds) rp hL hR d1 d2 d3 hi).2.2
    rw [← k1, ← k2, ← k3]
    congr 2
    apply List.ext_getElem
    · simp only [List.length_zip, List.length_take]; omega
    · intro i _ _
      simp only [List.getElem_zip, List.getElem_take]
  · rw [if_neg h0, if_neg h0]
    simp

theorem lay_agree {rp : List F} {rl : F} (hT : ∀ T ∈ Ts, T.length = 2 ^ n)
    (hds : ∀ d ∈ ds, d.1.length = 2 ^ (n - 1) ∧ d.2.1.length = 2 ^ (n - 1) ∧ d.2.2.length = 2 ^ (n - 1))
    (hk : kk < n) (hr : rp.length = n - 1 - kk)
    (hL : L.length = Ts.length) (hR : R.length = Ts.length)
    (hd : kk = 0 → dL.length ≤ dR.length ∧ dL.length ≤ dW.length ∧ dL.length = ds.length)
    (h1 : nextClaims rl L R = Ts.map fun T => mle (tab T kk) (rl :: rp))
    (h2 : kk = 0 → dotpNext rl (ds.length / 2) dL dR dW = dotAt ds (rl :: rp)) :
    ∀ q ∈ layQ n Ts ds kk rp (layS kk L R dL dR dW),
      q.1.1 + rl * (q.1.2 - q.1.1) = q.2.1 + rl * (q.2.2 - q.2.1) := by
  intro q hq
  rcases List.mem_append.1 hq with h | h
  · obtain ⟨i, hi, rfl⟩ := List.mem_map.1 h
    have hi := List.mem_range.1 hi
    obtain ⟨e1, e2⟩ := ilv_getD (L := L) (R := R) (if kk = 0 then ilv3 dL dR dW else [])
      (hL.trans hR.symm) (by rw [hL]; exact hi)
    have := congrArg (fun l => l.getD i 0) h1
    simp only [nextClaims] at this
    rw [List.getD_eq_getElem _ _ (by simp; omega), List.getElem_zipWith,
      ← List.getD_eq_getElem L 0 (by omega), ← List.getD_eq_getElem R 0 (by omega),
      List.getD_eq_getElem (Ts.map _) _ (by simpa using hi), List.getElem_map,
      ← List.getD_eq_getElem Ts [] hi] at this
    have hmem : Ts.getD i [] ∈ Ts := by rw [List.getD_eq_getElem _ _ hi]; exact List.getElem_mem _
    rw [← layer_next (hT _ hmem) hk hr] at this
    simp only [layS, e1, e2]
    exact this
  · by_cases h0 : kk = 0
    swap
    · rw [if_neg h0] at h; simp at h
    subst h0
    obtain ⟨d1, d2, d3⟩ := hd rfl
    rw [if_pos rfl, List.mem_flatMap] at h
    obtain ⟨i, hi, h⟩ := h
    have hi := List.mem_range.1 hi
    have hn := h2 rfl
    rw [← dotpNext_eq hds (by rw [hr]; rfl) rl] at hn
    unfold dotpNext at hn
    obtain ⟨n1, n2, n3⟩ := flatMap3_inj _ _ _ _ _ _ _ hn i hi
    obtain ⟨a1, a2, a3⟩ := layS_dot hL hR d1 d2 (i := 2 * i) (by omega)
    obtain ⟨b1, b2, b3⟩ := layS_dot hL hR d1 d2 (i := 2 * i + 1) (by omega)
    rw [show 2 * Ts.length + 3 * (2 * i) = 2 * Ts.length + 6 * i by omega] at a1 a2 a3
    rw [show 2 * Ts.length + 3 * (2 * i + 1) = 2 * Ts.length + 6 * i + 3 by omega] at b1 b2 b3
    have g : ∀ (f : List F × List F × List F → F) j, j < ds.length →
        (ds.map f).getD j 0 = f (ds.getD j ([], [], [])) := by
      intro f j hj
      rw [List.getD_eq_getElem _ _ (by simpa using hj), List.getD_eq_getElem _ _ hj, List.getElem_map]
    simp only [g _ (2 * i) (by omega), g _ (2 * i + 1) (by omega)] at n1 n2 n3
    simp only [a1, a2, a3, b1, b2, b3, List.mem_cons, List.not_mem_nil, or_false] at h
    rcases h with rfl | rfl | rfl
    · exact n1
    · exact n2
    · exact n3

end layer

/-- Number of challenges of the layers `kk - 1, …, 0`. -/
def prodBRounds (n m D : Nat) : Nat → Nat
  | 0 => 0
  | kk + 1 => (m + if kk = 0 then D else 0) + ((n - 1 - kk) + (1 + prodBRounds n m D kk))

theorem prodBRounds_le (n m D : Nat) : ∀ kk, 1 ≤ kk → n ≤ prodBRounds n m D kk
  | 1, _ => by simp only [prodBRounds]; omega
  | kk + 2, _ => by
    have := prodBRounds_le n m D (kk + 1) (by omega)
    rw [prodBRounds]; omega

/-- The evaluation point, read off the challenges. -/
def prodPt (n : Nat) (cs : List F) : List F :=
  (cs.drop (cs.length - n)).getLastD 0 :: (cs.drop (cs.length - n)).dropLast

theorem prodPt_append {n : Nat} (a b : List F) (h : n ≤ b.length) : prodPt n (a ++ b) = prodPt n b := by
  unfold prodPt
  rw [List.length_append, show a.length + b.length - n = a.length + (b.length - n) by omega,
    List.drop_append, List.drop_eq_nil_of_le (by omega), List.nil_append,
    show a.length + (b.length - n) - a.length = b.length - n by omega]

theorem prodPt_snoc {n : Nat} (a rp : List F) (rl : F) (h : rp.length + 1 = n) :
    prodPt n (a ++ (rp ++ [rl])) = rl :: rp := by
  rw [prodPt_append _ _ (by simp; omega)]
  unfold prodPt
  rw [show (rp ++ [rl]).length - n = 0 by simp; omega, List.drop_zero]
  simp

theorem readNext_eq {m kk : Nat} {rl : F} {L R dL dR dW : List F} (hL : L.length = m) (hR : R.length = m) :
    readNext m rl (layS kk L R dL dR dW) = nextClaims rl L R := by
  apply List.ext_getElem
  · simp [readNext, nextClaims, hL, hR]
  · intro i h1 h2
    have hi : i < m := by simpa [readNext] using h1
    obtain ⟨e1, e2⟩ := ilv_getD (L := L) (R := R) (if kk = 0 then ilv3 dL dR dW else [])
      (hL.trans hR.symm) (by rw [hL]; exact hi)
    simp only [readNext, nextClaims, List.getElem_map, List.getElem_range, List.getElem_zipWith, layS, e1, e2]
    rw [List.getD_eq_getElem _ _ (by omega), List.getD_eq_getElem _ _ (by omega)]

theorem prodB_rbr {E : Env F G P} {rep : P → M} {n : Nat} {Ts : List (List F)}
    (hm : 1 ≤ Ts.length) (hT : ∀ T ∈ Ts, T.length = 2 ^ n) {ds : List (List F × List F × List F)}
    (hds : ∀ d ∈ ds, d.1.length = 2 ^ (n - 1) ∧ d.2.1.length = 2 ^ (n - 1) ∧ d.2.2.length = 2 ^ (n - 1))
    (hev : ds.length % 2 = 0) {cd : List F} (hcd : cd.length = ds.length) {pf : ProdProofBatched F} :
    ∀ (lps : List (LayerProofBatched F)) (kk : Nat), lps.length = kk → kk ≤ n →
    ∀ (claims dcl rand c' d' rand' : List F) (tr tr' : Tr F P) (cur : List (Msg F M)),
      claims.length = Ts.length → rand.length = n - kk →
    prodBVerifyLoop E Ts.length cd pf lps (n - kk) claims dcl rand tr = .ok (c', d', rand', tr') →
    ∃ Rs, Seg E rep tr cur Rs tr' (if kk = 0 then cur else []) ∧ Rs.length = prodBRounds n Ts.length ds.length kk ∧
      rand'.length = n ∧ (1 ≤ kk → rand' = prodPt n (chs Rs)) ∧
      (1 ≤ kk → (Rs.headD ([], 0)).1 = cur) ∧
      (((claims ≠ Ts.map fun T => mle (tab T kk) rand) ∨ (1 ≤ kk ∧ cd ≠ ds.map (triSum (n - 1)))) →
        Hit (prodBBad n Ts ds cd kk claims rand) Rs ∨
          (c' ≠ Ts.map fun T => mle T rand') ∨ d' ≠ dotAt ds rand')
  | [], kk, hkk, _, claims, dcl, rand, c', d', rand', tr, tr', cur, hcl, hr, h => by
    obtain rfl : kk = 0 := by simpa using hkk.symm
    simp only [prodBVerifyLoop, Except.ok.injEq, Prod.mk.injEq] at h
    obtain ⟨rfl, rfl, rfl, rfl⟩ := h
    exact ⟨[], Seg.refl E rep tr cur, rfl, by simpa using hr, by omega, by omega, fun he => .inr (.inl (by
      rcases he with he | he
      · simpa [tab] using he
      · omega))⟩
  | lp :: lps, kk', hkk, hle, claims, dcl, rand, c', d', rand', tr, tr', cur, hcl, hr, h => by
    obtain ⟨kk, rfl⟩ : ∃ kk, kk' = kk + 1 := ⟨kk' - 1, by simp at hkk; omega⟩
    have hlk : lps.length = kk := by simpa using hkk
    have hk : kk < n := by omega
    have hr' : rand.length = n - 1 - kk := by omega
    have hlast : lps.isEmpty = decide (kk = 0) := by
      rw [← hlk]; cases lps <;> simp
    obtain ⟨cl, coeffs, tr0, claimLast, rp, tr1, eq, tr2, hc1, hcv, hpl, hsc, hL, hR, heq, hmc, hdl, hfin, ht2,
      hrec⟩ := prodBLoop_cons_ok h
    rw [hlast] at hc1 hdl hfin ht2 hrec
    simp only [decide_eq_true_eq] at hc1 hdl hfin ht2 hrec
    have hcll : cl.length = Ts.length + if kk = 0 then ds.length else 0 := by
      rw [hc1]; split
      · rw [List.length_append, hcl, hcd]
      · rw [hcl]; rfl
    obtain ⟨R1, S1, l1, hco, hhd⟩ := challengeVec_seg E rep "rand_coeffs_next_layer" cl.length tr cur
    rw [hcv] at S1 hco
    simp only at S1 hco
    rw [if_neg (by omega)] at S1
    have hcol : coeffs.length = cl.length := by rw [← hco, chs_length, l1]
    -- the sum-check
    obtain ⟨R2, S2, l2, hrp, H2⟩ := sc_rbr (rep := rep) lp.proof (layF (layG n Ts ds kk rand) coeffs) _ _ _ _ _
      ([] : List (Msg F M)) hsc
    have S2 : Seg E rep tr0 [] R2 tr1 [] := by simpa using S2
    rw [hpl, show n - (kk + 1) = n - 1 - kk by omega] at H2 l2
    have hrpl : rp.length = n - 1 - kk := by rw [hrp, chs_length, l2]
    -- the end of the layer
    have hd : kk = 0 → pf.dotpL.length ≤ pf.dotpR.length ∧ pf.dotpL.length ≤ pf.dotpW.length ∧
        pf.dotpL.length = ds.length := fun h0 => by
      obtain ⟨q1, q2, q3, q4⟩ := hdl h0
      rw [hcol, hcll, if_pos h0] at q3
      refine ⟨q1, q2, ?_⟩
      omega
    have S3 : ∃ c, Seg E rep tr1 [] [] tr2 c ∧ scs c = layS kk lp.left lp.right pf.dotpL pf.dotpR pf.dotpW := by
      obtain ⟨c, s1, s2, -⟩ := Seg.pairs (E := E) (rep := rep) lp.left lp.right (Seg.refl E rep tr1 [])
      by_cases h0 : kk = 0
      · obtain ⟨c', s3, s4, -⟩ := Seg.triples pf.dotpL pf.dotpR pf.dotpW s1
        rw [ht2, if_pos h0]
        exact ⟨c', s3, by rw [s4, s2, layS, if_pos h0]; simp⟩
      · rw [ht2, if_neg h0]
        exact ⟨c, s1, by rw [s2, layS, if_neg h0]; simp⟩
    obtain ⟨ms, S3, hms⟩ := S3
    have S4 := S3.chal "challenge_r_layer"
    obtain ⟨rl, hrl⟩ : ∃ rl, rl = E.hash (tr2 ++ [.chal "challenge_r_layer"]) := ⟨_, rfl⟩
    rw [← hrl] at S4 hrec
    obtain ⟨Rs, S5, l5, hlen, hpt, hhd5, H5⟩ := prodB_rbr (E := E) (rep := rep) hm hT hds hev hcd lps kk hlk
      (by omega) (nextClaims rl lp.left lp.right) _ (rl :: rp) c' d' rand' _ tr' [] (by simp [nextClaims, hL, hR])
      (by simp [hrpl]; omega) (by rw [show n - kk = n - (kk + 1) + 1 by omega]; exact hrec)
    have S5 : Seg E rep (tr2 ++ [.chal "challenge_r_layer"]) [] Rs tr' [] := by simpa using S5
    have hR1 : R1.length = Ts.length + if kk = 0 then ds.length else 0 := by rw [l1, hcll]
    -- the claims of the next layer
    have hnext : ((claims ≠ Ts.map fun T => mle (tab T (kk + 1)) rand) ∨ (kk = 0 ∧ cd ≠ ds.map (triSum (n - 1)))) →
        Hit (prodBBad n Ts ds cd (kk + 1) claims rand) (R1 ++ (R2 ++ ([(ms, rl)] ++ Rs))) ∨
        (nextClaims rl lp.left lp.right ≠ Ts.map fun T => mle (tab T kk) (rl :: rp)) ∨
        (kk = 0 ∧ dotpNext rl (ds.length / 2) pf.dotpL pf.dotpR pf.dotpW ≠ dotAt ds (rl :: rp)) := by
      intro he
      have hlt : (layTrue n Ts ds kk rand).length = cl.length := by
        rw [hcll, layTrue]; split <;> simp
      have hne : cl ≠ layTrue n Ts ds kk rand := by
        intro hc
        rw [hc1, layTrue] at hc
        by_cases h0 : kk = 0
        · rw [if_pos h0, if_pos h0] at hc
          obtain ⟨x1, x2⟩ := List.append_inj hc (by simp [hcl])
          rcases he with he | he
          · exact he x1
          · exact he.2 x2
        · rw [if_neg h0, if_neg h0, List.append_nil] at hc
          rcases he with he | he
          · exact he hc
          · exact h0 he.1
      unfold prodBBad
      rw [← hc1]
      by_cases hlin : (List.zipWith (· * ·) (List.zipWith (· - ·) cl (layTrue n Ts ds kk rand)) (chs R1)).sum = 0
      · left
        refine Spec.Hit.left hR1 (lins_hit _ _ (by simp [l1, hlt]) (zipWith_ne hlt.symm hne) hlin)
      rw [zipWith_sub_sum _ _ _ hlt.symm, hco, ← layG_sum hT hk hr', ← cubeSum_layF] at hlin
      rcases H2 (sub_ne_zero.1 hlin) with hH | hH
      · left
        refine Spec.Hit.right hR1 ?_
        rw [hco]
        exact Spec.Hit.left l2 hH
      by_cases hq : ∀ q ∈ layQ n Ts ds kk rp (layS kk lp.left lp.right pf.dotpL pf.dotpR pf.dotpW),
          q.1.1 + rl * (q.1.2 - q.1.1) = q.2.1 + rl * (q.2.2 - q.2.1)
      · left
        refine Spec.Hit.right hR1 (Spec.Hit.right l2 (Spec.Hit.left rfl (Spec.Hit.one ?_)))
        rw [← hrp, hms]
        refine ⟨?_, hq⟩
        by_contra hall
        push Not at hall
        apply hH
        rw [eqEvaluate_mle rand rp (by omega)] at heq
        cases heq
        rw [← hfin]
        exact lay_all hL hR hd hev hall
      · right
        by_contra hc
        push Not at hc
        exact hq (lay_agree hT hds hk hrpl hL hR hd hc.1 hc.2)
    refine ⟨R1 ++ (R2 ++ ([(ms, rl)] ++ Rs)), ?_, ?_, hlen, fun _ => ?_, fun _ => ?_, fun he => ?_⟩
    · rw [if_neg (by omega)]
      have := S1.trans (S2.trans (S4.trans S5))
      simpa using this
    · simp only [List.length_append, hR1, l2, l5, List.length_singleton, prodBRounds]
    · by_cases h0 : kk = 0
      · subst h0
        obtain rfl : lps = [] := List.length_eq_zero_iff.1 hlk
        simp only [prodBVerifyLoop, Except.ok.injEq, Prod.mk.injEq] at hrec
        obtain ⟨-, -, rfl, -⟩ := hrec
        have hRs : Rs = [] := List.length_eq_zero_iff.1 l5
        rw [hRs]
        have : chs (R1 ++ (R2 ++ ([(ms, rl)] ++ []))) = chs R1 ++ (rp ++ [rl]) := by
          rw [hrp]; simp [chs]
        rw [this, prodPt_snoc _ _ _ (by omega)]
      · rw [hpt (by omega)]
        have : chs (R1 ++ (R2 ++ ([(ms, rl)] ++ Rs))) = chs (R1 ++ (R2 ++ [(ms, rl)])) ++ chs Rs := by
          simp [chs]
        rw [this, prodPt_append]
        rw [chs_length, l5]
        exact prodBRounds_le _ _ _ _ (by omega)
    · have := hhd (by omega)
      cases R1 with
      | nil => simp at l1; omega
      | cons a R1 => simpa using this
    · have up : Hit (prodBBad n Ts ds cd kk (nextClaims rl lp.left lp.right) (rl :: rp)) Rs →
          Hit (prodBBad n Ts ds cd (kk + 1) claims rand) (R1 ++ (R2 ++ ([(ms, rl)] ++ Rs))) := by
        intro hH
        unfold prodBBad
        refine Spec.Hit.right hR1 (Spec.Hit.right l2 (Spec.Hit.right rfl ?_))
        simp only [List.headD_cons, chs, List.map_cons, List.map_nil, List.getD_cons_zero]
        rw [hms, readNext_eq hL hR]
        rw [hrp] at hH
        exact hH
      by_cases h0 : kk = 0
      · subst h0
        obtain rfl : lps = [] := List.length_eq_zero_iff.1 hlk
        rcases hnext (by simpa using he) with hH | hH
        · exact .inl hH
        · right
          simp only [prodBVerifyLoop, Except.ok.injEq, Prod.mk.injEq] at hrec
          obtain ⟨rfl, rfl, rfl, -⟩ := hrec
          rcases hH with hH | ⟨-, hH⟩
          · exact .inl (by simpa [tab] using hH)
          · right
            simpa [hcd] using hH
      · rcases he with he | ⟨-, he⟩
        · rcases hnext (.inl he) with hH | hH
          · exact .inl hH
          · rcases hH with hH | ⟨hz, -⟩
            · rcases H5 (.inl hH) with h1 | h1
              · exact .inl (up h1)
              · exact .inr h1
            · exact absurd hz h0
        · rcases H5 (.inr ⟨by omega, he⟩) with h1 | h1
          · exact .inl (up h1)
          · exact .inr h1

end Spartan
