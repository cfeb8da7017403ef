import Verif.Lemmas.CouplingBullet
import Verif.Props.Sumcheck

/-! Coupling of two runs of the zero-knowledge sum-check prover. -/

set_option linter.unusedSectionVars false
namespace Spartan
open Spec
variable {F G P : Type} [Field F] [AddCommGroup G] [Module F G]
  [DecidableEq F] [DecidableEq P] [DecidableEq G]

/-- Transcript after the commitment to the round polynomial, before the round challenge. -/
def zkT1 (E : Env F G P) (tr : Tr F P) (CP : G) : Tr F P :=
  tr.point "comm_poly" (E.compress CP) ++ [.chal "challenge_nextround"]

/-- Transcript after the evaluation commitment. -/
def zkT2 (E : Env F G P) (tr : Tr F P) (CP CC CE : G) : Tr F P :=
  ((zkT1 E tr CP).point "comm_claim_per_round" (E.compress CC)).point "comm_eval" (E.compress CE)

/-- Transcript after the two combination challenges. -/
def zkT3 (E : Env F G P) (tr : Tr F P) (CP CC CE : G) : Tr F P :=
  zkT2 E tr CP CC CE ++ [.chal "combine_two_claims_to_one"] ++ [.chal "combine_two_claims_to_one"]

theorem zkProveLoop_succ {S : Type} {d : Nat} {E : Env F G P} (hE : E.Lawful) {g0 h : G}
    {gensn : Gens G} (hg : gensn.WF) (hn : gensn.n = d + 1)
    {points : S → Out (List F)} {bind : F → S → Out S} {pts : List F → List F}
    {cs : List F} (hl : cs.length = d + 1) {s s1 : S} {claim claim1 bclaim bp be : F}
    (hsum : polyEval cs 0 + polyEval cs 1 = claim)
    (hpts : points s = .ok (pts cs)) {rest : List F} (hp1 : pts cs = polyEval cs 0 :: rest)
    (hp2 : UniPoly.fromEvals (polyEval cs 0 :: polyEval cs 1 :: rest) = .ok ⟨cs⟩)
    (blinds : List (F × F)) (tr : Tr F P) (tape : Tape F) {CP CC CE : G}
    (hCP : lc cs gensn.G + bp • gensn.h = CP) (hCC : claim • g0 + bclaim • h = CC)
    (hCE : claim1 • g0 + be • h = CE) (hb : bind (E.hash (zkT1 E tr CP)) s = .ok s1)
    (hc1 : claim1 = polyEval cs (E.hash (zkT1 E tr CP))) :
    zkProveLoop E points bind (Gens.single g0 h) gensn ((bp, be) :: blinds) bclaim claim
        (E.compress CC) s tr tape =
      (do
        let w0 := E.hash (zkT2 E tr CP CC CE ++ [.chal "combine_two_claims_to_one"])
        let w1 := E.hash (zkT3 E tr CP CC CE)
        let r := E.hash (zkT1 E tr CP)
        let (pf, _, _, tr', tape) ← DotProductProof.prove E (Gens.single g0 h) gensn (zkT3 E tr CP CC CE) tape
          cs bp (zkWeights w0 w1 r (d + 1)) (w0 * claim + w1 * claim1) (w0 * bclaim + w1 * be)
        let (zk, rs, s, tr', tape) ← zkProveLoop E points bind (Gens.single g0 h) gensn blinds be claim1
          (E.compress CE) s1 tr' tape
        pure (⟨E.compress CP :: zk.commPolys, E.compress CE :: zk.commEvals, pf :: zk.proofs⟩,
          r :: rs, s, tr', tape)) := by
  have hne : cs ≠ [] := by rintro rfl; simp at hl
  have hmsm : ∀ w0 w1 : F, msm [w0, w1] [CC, CE] = .ok (w0 • CC + w1 • CE) := by
    intro w0 w1; rw [msm_eq (by simp)]; simp
  have hdec : [E.compress CC, E.compress CE].mapM E.decompressU = .ok [CC, CE] := by
    simp [decompressU_compress hE, pure_ok]
  conv_lhs => unfold zkProveLoop
  rw [hpts, ok_bind, hp1]
  simp only [idx, List.getElem?_cons_zero, List.tail_cons]
  rw [ok_bind]
  have e1 : claim - polyEval cs 0 = polyEval cs 1 := by rw [← hsum]; ring
  rw [e1, hp2, ok_bind]
  simp only
  rw [commitV_eq hg (by rw [hn, hl]), ok_bind]
  simp only [Env.challenge, hCP]
  rw [show (tr.point "comm_poly" (E.compress CP) ++ [.chal "challenge_nextround"]) = zkT1 E tr CP from rfl,
    hb, ok_bind, uniEvaluate_correct _ hne, ok_bind]
  simp only
  rw [← hc1, commit1_single, ok_bind, hCE]
  simp only [challengeVec_two, List.getD_cons_zero, List.getD_cons_succ]
  rw [hdec, ok_bind, hmsm, ok_bind, commit1_single, ok_bind]
  rw [check_true (by congr 1; rw [← hCC, ← hCE]; module), ok_bind]
  unfold UniPoly.degree
  simp only [hl]
  rw [check_true (by omega), ok_bind, pure_bind]
  simp only [Nat.add_sub_cancel]
  rfl

/-- Last blind of the list, `b` if it is empty. -/
def lastBlind {n : Nat} (b : F) (D : Fin n → F × F) : F := ((List.ofFn D).map (·.2)).getLastD b

theorem lastBlind_cons {n : Nat} (b : F) (x : F × F) (D : Fin n → F × F) :
    lastBlind b (Fin.cons x D : Fin (n + 1) → F × F) = lastBlind x.2 D := by
  unfold lastBlind
  rw [List.ofFn_succ]
  simp only [Fin.cons_zero, Fin.cons_succ, List.map_cons, List.getLastD_cons]

/-- Randomness of one round: blinds and the scalars of the dot-product proof. -/
abbrev ZKR (F : Type) (d : Nat) := (F × F) × ((Fin (d + 1) → F) × F × F)

theorem zkLoop_coupled {S : Type} {d : Nat} {E : Env F G P} (hE : E.Lawful) {g0 h : G}
    {gensn : Gens G} (hg : gensn.WF) (hn : gensn.n = d + 1)
    (hh : Function.Surjective fun s : F => s • h) (hhn : Function.Surjective fun s : F => s • gensn.h)
    {points : S → Out (List F)} {bind : F → S → Out S} {pts : List F → List F}
    {inv : Nat → S → Prop} {total : S → F} (R : Rounds points bind pts d inv total)
    (hfe : ∀ cs : List F, cs.length = d + 1 → ∃ rest, pts cs = polyEval cs 0 :: rest ∧
      UniPoly.fromEvals (polyEval cs 0 :: polyEval cs 1 :: rest) = .ok ⟨cs⟩) :
    ∀ (n : Nat) (s s' : S) (bclaim bclaim' : F) (CC : G) (tr : Tr F P), inv n s → inv n s' →
      total s • g0 + bclaim • h = CC → total s' • g0 + bclaim' • h = CC →
    ∃ σ : (Fin n → ZKR F d) ≃ (Fin n → ZKR F d), ∀ D, ∃ zk rs s1 s1' tr',
      inv 0 s1 ∧ inv 0 s1' ∧ rs.length = n ∧ rs.foldlM (fun s r => bind r s) s = .ok s1 ∧
      rs.foldlM (fun s r => bind r s) s' = .ok s1' ∧
      total s1 • g0 + lastBlind bclaim (fun i => (D i).1) • h =
        total s1' • g0 + lastBlind bclaim' (fun i => (σ D i).1) • h ∧
      ∀ t,
        zkProveLoop E points bind (Gens.single g0 h) gensn (List.ofFn fun i => (D i).1) bclaim (total s)
          (E.compress CC) s tr (((layDP F (d + 1)).pi n).put (fun i => (D i).2) t) =
            .ok (zk, rs, s1, tr', t) ∧
        zkProveLoop E points bind (Gens.single g0 h) gensn (List.ofFn fun i => (σ D i).1) bclaim' (total s')
          (E.compress CC) s' tr (((layDP F (d + 1)).pi n).put (fun i => (σ D i).2) t) =
            .ok (zk, rs, s1', tr', t) := by
  intro n
  induction n with
  | zero =>
    intro s s' bclaim bclaim' CC tr hi hi' hC hC'
    refine ⟨Equiv.refl _, fun D => ⟨⟨[], [], []⟩, [], s, s', tr, hi, hi', rfl, rfl, rfl, ?_, fun t => ⟨?_, ?_⟩⟩⟩
    · simp [lastBlind, hC, hC']
    · simp [zkProveLoop]
    · simp [zkProveLoop]
  | succ n ih =>
    intro s s' bclaim bclaim' CC tr hi hi' hC hC'
    obtain ⟨cs, hl, hsum, hpts, hb⟩ := R.step n s hi
    obtain ⟨cs', hl', hsum', hpts', hb'⟩ := R.step n s' hi'
    obtain ⟨rest, hp1, hp2⟩ := hfe cs hl
    obtain ⟨rest', hp1', hp2'⟩ := hfe cs' hl'
    obtain ⟨δp, hδp⟩ := hhn (lc cs gensn.G - lc cs' gensn.G)
    simp only at hδp
    have hCP : ∀ bp : F, lc cs' gensn.G + (bp + δp) • gensn.h = lc cs gensn.G + bp • gensn.h := by
      intro bp; rw [add_smul, hδp]; abel
    -- one round, given the blind of the round polynomial
    have hround : ∀ bp : F, ∃ δe : F, ∀ be : F, ∃ τ : ((Fin (d + 1) → F) × F × F) ≃ ((Fin (d + 1) → F) × F × F),
        ∀ e, ∃ ρ : (Fin n → ZKR F d) ≃ (Fin n → ZKR F d), ∀ D, ∃ zk rs s1 s1' tr',
      inv 0 s1 ∧ inv 0 s1' ∧ rs.length = n + 1 ∧ rs.foldlM (fun s r => bind r s) s = .ok s1 ∧
      rs.foldlM (fun s r => bind r s) s' = .ok s1' ∧
      total s1 • g0 + lastBlind be (fun i => (D i).1) • h =
        total s1' • g0 + lastBlind (be + δe) (fun i => (ρ D i).1) • h ∧
      ∀ t,
        zkProveLoop E points bind (Gens.single g0 h) gensn ((bp, be) :: List.ofFn fun i => (D i).1) bclaim
          (total s) (E.compress CC) s tr
          ((layDP F (d + 1)).put e (((layDP F (d + 1)).pi n).put (fun i => (D i).2) t)) =
            .ok (zk, rs, s1, tr', t) ∧
        zkProveLoop E points bind (Gens.single g0 h) gensn
          ((bp + δp, be + δe) :: List.ofFn fun i => (ρ D i).1) bclaim' (total s')
          (E.compress CC) s' tr ((layDP F (d + 1)).put (τ e)
            (((layDP F (d + 1)).pi n).put (fun i => (ρ D i).2) t)) =
            .ok (zk, rs, s1', tr', t) := by
      intro bp
      obtain ⟨CP, hCPd⟩ : ∃ CP, lc cs gensn.G + bp • gensn.h = CP := ⟨_, rfl⟩
      have hCP' := (hCP bp).trans hCPd
      obtain ⟨r, hr⟩ : ∃ r, r = E.hash (zkT1 E tr CP) := ⟨_, rfl⟩
      obtain ⟨u, hb1, hinv1, htot1⟩ := hb r
      obtain ⟨u', hb1', hinv1', htot1'⟩ := hb' r
      obtain ⟨δe, hδe⟩ := hh (total u • g0 - total u' • g0)
      simp only at hδe
      refine ⟨δe, fun be => ?_⟩
      obtain ⟨CE, hCE⟩ : ∃ CE, total u • g0 + be • h = CE := ⟨_, rfl⟩
      have hCE' : total u' • g0 + (be + δe) • h = CE := by rw [← hCE, add_smul, hδe]; abel
      obtain ⟨w0, hw0⟩ : ∃ w, w = E.hash (zkT2 E tr CP CC CE ++ [.chal "combine_two_claims_to_one"]) :=
        ⟨_, rfl⟩
      obtain ⟨w1, hw1⟩ : ∃ w, w = E.hash (zkT3 E tr CP CC CE) := ⟨_, rfl⟩
      have k1 : dot cs (zkWeights w0 w1 r (d + 1)) = w0 * total s + w1 * total u := by
        rw [dot_zkWeights hl, hsum, htot1]
      have k2 : dot cs' (zkWeights w0 w1 r (d + 1)) = w0 * total s' + w1 * total u' := by
        rw [dot_zkWeights hl', hsum', htot1']
      obtain ⟨τ, hτ⟩ := dotproduct_coupled E hg hn (zkWeights_length w0 w1 r (d + 1)) hl hl' k1 k2
        (g0 := g0) (h := h) (bY := w0 * bclaim + w1 * be) (bY' := w0 * bclaim' + w1 * (be + δe))
        (Cy := w0 • CC + w1 • CE) hCPd hCP' (by rw [← hC, ← hCE]; module)
        (by rw [← hC', ← hCE']; module) (zkT3 E tr CP CC CE)
      refine ⟨τ, fun e => ?_⟩
      obtain ⟨pf, tr4, hpf⟩ := hτ e
      obtain ⟨ρ, hρ⟩ := ih u u' be (be + δe) CE tr4 hinv1 hinv1' hCE hCE'
      refine ⟨ρ, fun D => ?_⟩
      obtain ⟨zk, rs, s1, s1', tr', i1, i2, i3, i4, i5, i6, i7⟩ := hρ D
      refine ⟨⟨E.compress CP :: zk.commPolys, E.compress CE :: zk.commEvals, pf :: zk.proofs⟩, r :: rs,
        s1, s1', tr', i1, i2, by simp [i3], ?_, ?_, i6, fun t => ⟨?_, ?_⟩⟩
      · rw [List.foldlM_cons, hb1, ok_bind, i4]
      · rw [List.foldlM_cons, hb1', ok_bind, i5]
      · rw [zkProveLoop_succ hE hg hn hl hsum hpts hp1 hp2 _ tr _ hCPd hC hCE (hr ▸ hb1) (hr ▸ htot1)]
        simp only [← hw0, ← hw1, ← hr]
        rw [(hpf _).1, ok_bind]
        simp only
        rw [(i7 t).1, ok_bind]; rfl
      · rw [zkProveLoop_succ hE hg hn hl' hsum' hpts' hp1' hp2' _ tr _ hCP' hC' hCE' (hr ▸ hb1') (hr ▸ htot1')]
        simp only [← hw0, ← hw1, ← hr]
        rw [(hpf _).2, ok_bind]
        simp only
        rw [(i7 t).2, ok_bind]; rfl
    choose δe τ ρ hρ using hround
    -- assemble the bijection
    let blindsE : (F × F) ≃ (F × F) := Equiv.prodShear (Equiv.addRight δp) (fun bp => Equiv.addRight (δe bp))
    let headE : ZKR F d ≃ ZKR F d := Equiv.prodShear blindsE (fun b => τ b.1 b.2)
    refine ⟨(Fin.consEquiv fun _ : Fin (n + 1) => ZKR F d).symm.trans
      ((Equiv.prodShear headE (fun x => ρ x.1.1 x.1.2 x.2)).trans (Fin.consEquiv fun _ : Fin (n + 1) => ZKR F d)),
      fun D => ?_⟩
    obtain ⟨x, xs, rfl⟩ : ∃ x xs, D = Fin.cons x xs := ⟨D 0, Fin.tail D, (Fin.cons_self_tail D).symm⟩
    obtain ⟨⟨bp, be⟩, e⟩ := x
    obtain ⟨zk, rs, s1, s1', tr', i1, i2, i3, i4, i5, i6, i7⟩ := hρ bp be e xs
    refine ⟨zk, rs, s1, s1', tr', i1, i2, i3, i4, i5, ?_, fun t => ⟨?_, ?_⟩⟩
    · have a1 : lastBlind bclaim (fun i => ((Fin.cons ((bp, be), e) xs : Fin (n + 1) → ZKR F d) i).1) =
          lastBlind be fun i => (xs i).1 := by
        rw [← lastBlind_cons bclaim (bp, be)]
        congr 1; funext i; refine Fin.cases rfl (fun i => rfl) i
      rw [a1, i6]
      congr 2
      rw [← lastBlind_cons bclaim' (bp + δp, be + δe bp)]
      congr 1; funext i; refine Fin.cases rfl (fun i => rfl) i
    · have := (i7 t).1
      rw [List.ofFn_succ]
      exact this
    · have := (i7 t).2
      rw [List.ofFn_succ]
      exact this

/-- Layout of the randomness of the zero-knowledge sum-check: all polynomial blinds, all evaluation
blinds, then the scalars of the dot-product proofs. -/
def layZK (F : Type) (d n : Nat) : Lay F (Fin n → ZKR F d) ((n + n) + n * (d + 1 + (1 + 1))) :=
  (((Lay.vec F n).prod (Lay.vec F n)).prod ((layDP F (d + 1)).pi n)).equiv
    ((Equiv.arrowProdEquivProdArrow _ _ _).trans
      ((Equiv.arrowProdEquivProdArrow _ _ _).prodCongr (Equiv.refl _)))

theorem layZK_put {d n : Nat} (D : Fin n → ZKR F d) (t : Tape F) : (layZK F d n).put D t =
    Tape.pre (fun i => (D i).1.1) (Tape.pre (fun i => (D i).1.2)
      (((layDP F (d + 1)).pi n).put (fun i => (D i).2) t)) := rfl

theorem zk_coupled_core {d m : Nat} {E : Env F G P} (hE : E.Lawful) {g0 h : G} {gensn : Gens G}
    (hg : gensn.WF) (hn : gensn.n = d + 1) (hh : Function.Surjective fun s : F => s • h)
    (hhn : Function.Surjective fun s : F => s • gensn.h) {comb : List F → F} (hd : CombDeg d m comb)
    {points : List (Dense F) → Out (List F)} {pts : List F → List F}
    (hpts : ∀ ts cs, scPoints comb ts = .ok (pts3 cs) → points ts = .ok (pts cs))
    (hfe : ∀ cs : List F, cs.length = d + 1 → ∃ rest, pts cs = polyEval cs 0 :: rest ∧
      UniPoly.fromEvals (polyEval cs 0 :: polyEval cs 1 :: rest) = .ok ⟨cs⟩)
    {n : Nat} (hn1 : 1 ≤ n) {ts ts' : List (Dense F)} (ht : TInv n ts) (ht' : TInv n ts')
    (hm : ts.length = m) (hm' : ts'.length = m)
    {claim claim' bclaim bclaim' : F} {CC : G} (hcl : tTotal comb ts = claim) (hcl' : tTotal comb ts' = claim')
    (hC : claim • g0 + bclaim • h = CC) (hC' : claim' • g0 + bclaim' • h = CC) (tr : Tr F P) :
    ∃ σ : (Fin n → ZKR F d) ≃ (Fin n → ZKR F d), ∀ D, ∃ zk rs b b' tr', rs.length = n ∧
      comb (ts.map fun t => mle t.live rs) • g0 + b • h = comb (ts'.map fun t => mle t.live rs) • g0 + b' • h ∧
      ∀ t,
        zkProve E points claim bclaim n ts (Gens.single g0 h) gensn tr ((layZK F d n).put D t) =
          .ok (zk, rs, ts.map (fun t => mle t.live rs), b, tr', t) ∧
        zkProve E points claim' bclaim' n ts' (Gens.single g0 h) gensn tr ((layZK F d n).put (σ D) t) =
          .ok (zk, rs, ts'.map (fun t => mle t.live rs), b', tr', t) := by
  subst hcl hcl'
  have R : Rounds points scBind pts d (fun n ts => TInv n ts ∧ ts.length = m) (tTotal comb) := by
    constructor
    rintro n ts ⟨h, hm⟩
    obtain ⟨cs, h1, h2, h3, h4⟩ := table_round hd h hm
    exact ⟨cs, h1, h2, hpts _ _ h3, fun r => ⟨_, (h4 r).1, ⟨tinv_bt h r, by simpa using hm⟩, (h4 r).2⟩⟩
  obtain ⟨σ, hσ⟩ := zkLoop_coupled hE hg hn hh hhn R hfe n ts ts' bclaim bclaim' CC tr ⟨ht, hm⟩ ⟨ht', hm'⟩
    hC hC'
  refine ⟨σ, fun D => ?_⟩
  obtain ⟨zk, rs, s1, s1', tr', -, -, hr, hf, hf', hlast, hrun⟩ := hσ D
  have hl : ∀ t ∈ ts, t.Live rs.length := by rw [hr]; exact ht.2
  have hl' : ∀ t ∈ ts', t.Live rs.length := by rw [hr]; exact ht'.2
  rw [scBind_foldlM rs hl] at hf
  rw [scBind_foldlM rs hl'] at hf'
  cases hf
  cases hf'
  rw [tTotal_final ht.1 hl, tTotal_final ht'.1 hl'] at hlast
  have hlb : ∀ (b : F) (D : Fin n → F × F), lastBlind b D = (List.ofFn fun i => (D i).2).getD (n - 1) 0 := by
    intro b D
    unfold lastBlind
    rw [List.map_ofFn, List.getLastD_eq_getLast?, List.getLast?_eq_getElem?, List.getD_eq_getElem?_getD,
      List.length_ofFn]
    change (List.ofFn fun i => (D i).2)[n - 1]?.getD b = (List.ofFn fun i => (D i).2)[n - 1]?.getD 0
    rw [List.getElem?_eq_getElem (by simp; omega)]; rfl
  refine ⟨zk, rs, _, _, tr', hr, hlast, fun t => ⟨?_, ?_⟩⟩
  · unfold zkProve
    simp only [layZK_put, Tape.nextVec_pre, zip_ofFn, Prod.mk.eta]
    rw [commit1_single, ok_bind, hC, (hrun t).1, ok_bind]
    simp only
    rw [scFinals_eq hl, ok_bind, check_true hn1, ok_bind, idx_ok (by simp; omega) 0, ok_bind, hlb]
    rfl
  · unfold zkProve
    simp only [layZK_put, Tape.nextVec_pre, zip_ofFn, Prod.mk.eta]
    rw [commit1_single, ok_bind, hC', (hrun t).2, ok_bind]
    simp only
    rw [scFinals_eq hl', ok_bind, check_true hn1, ok_bind, idx_ok (by simp; omega) 0, ok_bind, hlb]
    rfl

end Spartan
