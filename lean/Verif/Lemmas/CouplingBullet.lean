import Verif.Lemmas.Coupling
import Verif.Lemmas.PolyEval

/-! Coupling of two runs of the logarithmic dot-product prover. -/

set_option linter.unusedSectionVars false
namespace Spartan
open Spec
variable {F G P : Type} [Field F] [AddCommGroup G] [Module F G]
  [DecidableEq F] [DecidableEq P] [DecidableEq G]

theorem bullet_fold {u : F} (hu0 : u ≠ 0) (Q H : G) {n : Nat} {GL GR : List G} {aL aR bl br : List F}
    (blind bL bR : F) (hGL : GL.length = n) (hGR : GR.length = n) (haL : aL.length = n)
    (haR : aR.length = n) (hbL : bl.length = n) (hbR : br.length = n) :
    lc (List.zipWith (fun l r => l * u + u⁻¹ * r) aL aR)
        (List.zipWith (fun l r => u⁻¹ • l + u • r) GL GR)
      + dot (List.zipWith (fun l r => l * u + u⁻¹ * r) aL aR)
        (List.zipWith (fun l r => l * u⁻¹ + u * r) bl br) • Q
      + (blind + bL * u * u + bR * u⁻¹ * u⁻¹) • H =
    (u * u) • (lc aL GR + dot aL br • Q + bL • H) + (u⁻¹ * u⁻¹) • (lc aR GL + dot aR bl • Q + bR • H)
      + (lc (aL ++ aR) (GL ++ GR) + dot (aL ++ aR) (bl ++ br) • Q + blind • H) := by
  have d1 : lc (List.zipWith (fun l r => l * u + u⁻¹ * r) aL aR)
      (List.zipWith (fun l r => u⁻¹ • l + u • r) GL GR)
      = lc aL GL + (u * u) • lc aL GR + (u⁻¹ * u⁻¹) • lc aR GL + lc aR GR := by
    rw [lc_zipWith_left (c := u) (d := u⁻¹) (fun x y => by ring) _ (by omega),
      lc_zipWith_right (fun _ _ => rfl) _ (by omega),
      lc_zipWith_right (fun _ _ => rfl) _ (by omega)]
    simp only [smul_add, smul_smul, mul_inv_cancel₀ hu0, inv_mul_cancel₀ hu0, one_smul]
    abel
  have d2 : dot (List.zipWith (fun l r => l * u + u⁻¹ * r) aL aR)
      (List.zipWith (fun l r => l * u⁻¹ + u * r) bl br)
      = dot aL bl + (u * u) * dot aL br + (u⁻¹ * u⁻¹) * dot aR bl + dot aR br := by
    unfold dot
    rw [lc_zipWith_left (c := u) (d := u⁻¹) (fun x y => by ring) _ (by omega),
      lc_zipWith_right (c := u⁻¹) (d := u) (fun x y => by simp [mul_comm]) _ (by omega),
      lc_zipWith_right (c := u⁻¹) (d := u) (fun x y => by simp [mul_comm]) _ (by omega)]
    simp only [smul_eq_mul]
    field_simp
    ring
  have d3 : lc (aL ++ aR) (GL ++ GR) = lc aL GL + lc aR GR := by rw [lc_append (by omega)]
  have d4 : dot (aL ++ aR) (bl ++ br) = dot aL bl + dot aR br := by
    unfold dot; rw [lc_append (by omega)]
  rw [d1, d2, d3, d4]
  rw [show bR * u⁻¹ * u⁻¹ = (u⁻¹ * u⁻¹) * bR by ring, show bL * u * u = (u * u) * bL by ring]
  generalize u * u = w
  generalize u⁻¹ * u⁻¹ = w'
  module

/-- Transcript of one round before the challenge. -/
def blTr (E : Env F G P) (tr : Tr F P) (L R : G) : Tr F P :=
  (tr.point "L" (E.compress L)).point "R" (E.compress R) ++ [Msg.chal "u"]

theorem bulletLoop_succ (E : Env F G P) (Q H : G) {k : Nat} {GL GR : List G} {aL aR bl br : List F}
    (blind bL bR : F) (blinds : List (F × F)) (tr : Tr F P) (hGL : GL.length = 2 ^ k) (hGR : GR.length = 2 ^ k)
    (haL : aL.length = 2 ^ k) (haR : aR.length = 2 ^ k) (hbL : bl.length = 2 ^ k) (hbR : br.length = 2 ^ k)
    {Lp Rp : G} (hL : lc aL GR + dot aL br • Q + bL • H = Lp) (hR : lc aR GL + dot aR bl • Q + bR • H = Rp) :
    bulletLoop E Q H (k + 1) (GL ++ GR) (aL ++ aR) (bl ++ br) blind ((bL, bR) :: blinds) tr =
      (do
        let u := E.hash (blTr E tr Lp Rp)
        let uInv ← invertU u
        let (Ls, Rs, ah, bh, gh, bf, tr) ← bulletLoop E Q H k
          (List.zipWith (fun l r => uInv • l + u • r) GL GR)
          (List.zipWith (fun l r => l * u + uInv * r) aL aR)
          (List.zipWith (fun l r => l * uInv + u * r) bl br)
          (blind + bL * u * u + bR * uInv * uInv) blinds (blTr E tr Lp Rp)
        pure (E.compress Lp :: Ls, E.compress Rp :: Rs, ah, bh, gh, bf, tr)) := by
  subst hL hR
  have m1 : msm (aL ++ [dot aL br] ++ [bL]) (GR ++ [Q] ++ [H])
      = .ok (lc aL GR + dot aL br • Q + bL • H) := by
    rw [msm_eq (by simp; omega), lc_append (by simp; omega), lc_append (by omega)]; simp
  have m2 : msm (aR ++ [dot aR bl] ++ [bR]) (GL ++ [Q] ++ [H])
      = .ok (lc aR GL + dot aR bl • Q + bR • H) := by
    rw [msm_eq (by simp; omega), lc_append (by simp; omega), lc_append (by omega)]; simp
  rw [bulletLoop]
  simp only [List.take_left' hGL, List.take_left' haL, List.take_left' hbL, List.drop_left' hGL,
    List.drop_left' haL, List.drop_left' hbL, innerProduct_eq (haL.trans hbR.symm),
      innerProduct_eq (haR.trans hbL.symm), ok_bind, m1, m2]
  rfl

theorem split_half {α : Type} {k : Nat} {l : List α} (h : l.length = 2 ^ (k + 1)) :
    ∃ a b, l = a ++ b ∧ a.length = 2 ^ k ∧ b.length = 2 ^ k :=
  ⟨l.take (2 ^ k), l.drop (2 ^ k), (List.take_append_drop _ _).symm, by
    rw [pow_succ] at h; simp; omega, by rw [pow_succ] at h; simp; omega⟩

/-- Shifting the first entry and then transforming the others depending on it. -/
def consShear {X : Type} [AddCommGroup X] {m : Nat} (δ : X) (σ : X → ((Fin m → X) ≃ (Fin m → X))) :
    (Fin (m + 1) → X) ≃ (Fin (m + 1) → X) :=
  (Fin.consEquiv fun _ : Fin (m + 1) => X).symm.trans
    ((Equiv.prodShear (Equiv.addRight δ) σ).trans (Fin.consEquiv fun _ : Fin (m + 1) => X))

theorem consShear_cons {X : Type} [AddCommGroup X] {m : Nat} (δ : X)
    (σ : X → ((Fin m → X) ≃ (Fin m → X))) (x : X) (xs : Fin m → X) :
    consShear δ σ (Fin.cons x xs : Fin (m + 1) → X) = (Fin.cons (x + δ) (σ x xs) : Fin (m + 1) → X) := rfl

theorem bulletLoop_coupled (E : Env F G P) (Q : G) {H : G}
    (hH : Function.Surjective fun s : F => s • H) :
    ∀ (k : Nat) (Gv : List G) (a a' b : List F) (blind blind' : F) (m : Nat) (tr : Tr F P),
      Gv.length = 2 ^ k → a.length = 2 ^ k → a'.length = 2 ^ k → b.length = 2 ^ k → k ≤ m →
      lc a Gv + dot a b • Q + blind • H = lc a' Gv + dot a' b • Q + blind' • H →
      ∃ σ : (Fin m → F × F) ≃ (Fin m → F × F), ∀ B,
        (∃ Ls Rs ah ah' bh gh bf bf' tr',
          bulletLoop E Q H k Gv a b blind (List.ofFn B) tr = .ok (Ls, Rs, ah, bh, gh, bf, tr') ∧
          bulletLoop E Q H k Gv a' b blind' (List.ofFn (σ B)) tr = .ok (Ls, Rs, ah', bh, gh, bf', tr') ∧
          ah • gh + (ah * bh) • Q + bf • H = ah' • gh + (ah' * bh) • Q + bf' • H) ∨
        (bulletLoop E Q H k Gv a b blind (List.ofFn B) tr = .error .panic ∧
          bulletLoop E Q H k Gv a' b blind' (List.ofFn (σ B)) tr = .error .panic) := by
  intro k
  induction k with
  | zero =>
    intro Gv a a' b blind blind' m tr hG ha ha' hb _ hP
    obtain ⟨g0, rfl⟩ := List.length_eq_one_iff.mp (by simpa using hG)
    obtain ⟨a0, rfl⟩ := List.length_eq_one_iff.mp (by simpa using ha)
    obtain ⟨a0', rfl⟩ := List.length_eq_one_iff.mp (by simpa using ha')
    obtain ⟨b0, rfl⟩ := List.length_eq_one_iff.mp (by simpa using hb)
    refine ⟨Equiv.refl _, fun B => Or.inl ⟨[], [], a0, a0', b0, g0, blind, blind', tr, rfl, rfl, ?_⟩⟩
    simpa [dot] using hP
  | succ k ih =>
    intro Gv a a' b blind blind' m tr hG ha ha' hb hm hP
    obtain ⟨m, rfl⟩ : ∃ m', m = m' + 1 := ⟨m - 1, by omega⟩
    obtain ⟨GL, GR, rfl, hGL, hGR⟩ := split_half hG
    obtain ⟨aL, aR, rfl, haL, haR⟩ := split_half ha
    obtain ⟨cL, cR, rfl, hcL, hcR⟩ := split_half ha'
    obtain ⟨bl, br, rfl, hbL, hbR⟩ := split_half hb
    obtain ⟨δL, hδL⟩ := hH ((lc aL GR + dot aL br • Q) - (lc cL GR + dot cL br • Q))
    obtain ⟨δR, hδR⟩ := hH ((lc aR GL + dot aR bl • Q) - (lc cR GL + dot cR bl • Q))
    simp only at hδL hδR
    have hsL : ∀ bL : F, lc cL GR + dot cL br • Q + (bL + δL) • H = lc aL GR + dot aL br • Q + bL • H := by
      intro bL; rw [add_smul, hδL]; abel
    have hsR : ∀ bR : F, lc cR GL + dot cR bl • Q + (bR + δR) • H = lc aR GL + dot aR bl • Q + bR • H := by
      intro bR; rw [add_smul, hδR]; abel
    -- coupling of the remaining rounds
    have hrest : ∀ x : F × F, ∃ σ : (Fin m → F × F) ≃ (Fin m → F × F), ∀ B : Fin m → F × F,
        (∃ Ls Rs ah ah' bh gh bf bf' tr',
          bulletLoop E Q H (k + 1) (GL ++ GR) (aL ++ aR) (bl ++ br) blind (x :: List.ofFn B) tr =
            .ok (Ls, Rs, ah, bh, gh, bf, tr') ∧
          bulletLoop E Q H (k + 1) (GL ++ GR) (cL ++ cR) (bl ++ br) blind'
            ((x + (δL, δR)) :: List.ofFn (σ B)) tr = .ok (Ls, Rs, ah', bh, gh, bf', tr') ∧
          ah • gh + (ah * bh) • Q + bf • H = ah' • gh + (ah' * bh) • Q + bf' • H) ∨
        (bulletLoop E Q H (k + 1) (GL ++ GR) (aL ++ aR) (bl ++ br) blind (x :: List.ofFn B) tr =
            .error .panic ∧
          bulletLoop E Q H (k + 1) (GL ++ GR) (cL ++ cR) (bl ++ br) blind'
            ((x + (δL, δR)) :: List.ofFn (σ B)) tr = .error .panic) := by
      rintro ⟨bL, bR⟩
      have s1 := fun bs => bulletLoop_succ E Q H blind bL bR bs tr hGL hGR haL haR hbL hbR rfl rfl
      have s2 := fun bs => bulletLoop_succ E Q H blind' (bL + δL) (bR + δR) bs tr hGL hGR hcL hcR hbL hbR
        (hsL bL) (hsR bR)
      simp only [Prod.mk_add_mk, s1, s2]
      set T := blTr E tr (lc aL GR + dot aL br • Q + bL • H) (lc aR GL + dot aR bl • Q + bR • H) with hT
      set u := E.hash T with hu
      by_cases hu0 : u = 0
      · refine ⟨Equiv.refl _, fun B => Or.inr ?_⟩
        simp [invertU, hu0, error_bind]
      · simp only [invertU, hu0, if_false, ok_bind]
        have f1 := bullet_fold hu0 Q H blind bL bR hGL hGR haL haR hbL hbR
        have f2 := bullet_fold hu0 Q H blind' (bL + δL) (bR + δR) hGL hGR hcL hcR hbL hbR
        rw [hsL, hsR, ← hP] at f2
        obtain ⟨σ, hσ⟩ := ih (List.zipWith (fun l r => u⁻¹ • l + u • r) GL GR)
          (List.zipWith (fun l r => l * u + u⁻¹ * r) aL aR)
          (List.zipWith (fun l r => l * u + u⁻¹ * r) cL cR)
          (List.zipWith (fun l r => l * u⁻¹ + u * r) bl br)
          (blind + bL * u * u + bR * u⁻¹ * u⁻¹) (blind' + (bL + δL) * u * u + (bR + δR) * u⁻¹ * u⁻¹)
          m T (by simp [hGL, hGR]) (by simp [haL, haR]) (by simp [hcL, hcR]) (by simp [hbL, hbR])
          (by omega) (f1.trans f2.symm)
        refine ⟨σ, fun B => ?_⟩
        rcases hσ B with ⟨Ls, Rs, ah, ah', bh, gh, bf, bf', tr', r1, r2, he⟩ | ⟨r1, r2⟩
        · left
          rw [r1, r2]
          exact ⟨_, _, _, _, _, _, _, _, _, rfl, rfl, he⟩
        · right
          rw [r1, r2]
          exact ⟨rfl, rfl⟩
    choose σ hσ using hrest
    refine ⟨consShear (δL, δR) σ, fun B => ?_⟩
    obtain ⟨x, xs, rfl⟩ : ∃ x xs, B = Fin.cons x xs := ⟨B 0, Fin.tail B, (Fin.cons_self_tail B).symm⟩
    rw [consShear_cons, List.ofFn_succ, List.ofFn_succ]
    simpa only [Fin.cons_zero, Fin.cons_succ] using hσ x xs

/-- Layout of the randomness of `DotProductProofLog::prove`. -/
def layDL (F : Type) (k : Nat) :
    Lay F ((F × F × F) × (Fin (2 * k) → F × F)) ((1 + (1 + 1)) + (2 * k + 2 * k)) :=
  (((Lay.one F).prod ((Lay.one F).prod (Lay.one F))).prod
    (((Lay.vec F (2 * k)).prod (Lay.vec F (2 * k))))).equiv
    ((Equiv.refl _).prodCongr (Equiv.arrowProdEquivProdArrow _ _ _))

/-- Transcript of `DotProductProofLog` before the bullet reduction. -/
def dlTr (E : Env F G P) (tr : Tr F P) (a : List F) (Cx Cy : G) : Tr F P :=
  (((tr.protocol "dot product proof (log)").point "Cx" (E.compress Cx)).point "Cy"
    (E.compress Cy)).scalars "a" a ++ [Msg.chal "r"]

/-- Transcript of `DotProductProofLog` before the final challenge. -/
def dlTr2 (E : Env F G P) (tr : Tr F P) (δ β : G) : Tr F P :=
  (tr.point "delta" (E.compress δ)).point "beta" (E.compress β) ++ [Msg.chal "c"]

theorem zip_ofFn {n : Nat} (a b : Fin n → F) : (List.ofFn a).zip (List.ofFn b) =
    List.ofFn fun i => (a i, b i) := by
  apply List.ext_getElem
  · simp
  · intro i h1 h2; simp

theorem dotlog_prove_eq (E : Env F G P) {gens : DotGens G} {k : Nat} {g0 h : G} (hg : gens.WF k g0 h)
    (tr : Tr F P) (t : Tape F) {x a : List F} {bx y bY d rD rB : F} {B : Fin (2 * k) → F × F}
    (hx : x.length = 2 ^ k) (ha : a.length = 2 ^ k) {Cx Cy : G}
    (hCx : lc x gens.gensn.G + bx • h = Cx) (hCy : y • g0 + bY • h = Cy) :
    DotProductProofLog.prove E gens tr ((layDL F k).put ((d, rD, rB), B) t) x bx a y bY =
      (do
        let r := E.hash (dlTr E tr a Cx Cy)
        let (Ls, Rs, xhat, ahat, ghat, rhat, tr) ← bulletLoop E (r • g0) h k gens.gensn.G x a
          (bx + r * bY) (List.ofFn B) (dlTr E tr a Cx Cy)
        let c := E.hash (dlTr2 E tr (d • ghat + rD • h) (d • r • g0 + rB • h))
        pure (⟨⟨Ls, Rs⟩, E.compress (d • ghat + rD • h), E.compress (d • r • g0 + rB • h),
          d + c * (xhat * ahat), ahat * (c * rhat + rB) + rD⟩, E.compress Cx, E.compress Cy,
          dlTr2 E tr (d • ghat + rD • h) (d • r • g0 + rB • h), t)) := by
  subst hCx hCy
  have hwf : gens.gensn.WF := by unfold Gens.WF; rw [hg.gn, hg.glen]
  unfold DotProductProofLog.prove
  simp only [check_true ha.symm, check_true hg.n, ok_bind, hx, log2_pow,
    commitV_eq hwf (hg.gn.trans hx.symm), hg.g1, commit1_single, scale_single, hg.gh]
  have hG1 : ∀ r : F, (Gens.single (r • g0) h).G = [r • g0] := fun _ => rfl
  have hs : ∀ gh : G, ({ n := 1, G := [gh], h := (Gens.single g0 h).h } : Gens G) = Gens.single gh h :=
    fun _ => rfl
  simp only [layDL, Lay.equiv, Lay.prod, Lay.one, Lay.vec, Equiv.prodCongr_apply, Prod.map,
    Equiv.refl_apply, Equiv.arrowProdEquivProdArrow, Equiv.coe_fn_mk, Tape.next_cons, Tape.nextVec_pre,
    zip_ofFn, Env.challenge, hG1]
  have hlog : log2ceil gens.gensn.G.length = k := by rw [hg.glen, log2ceil, Nat.clog_pow _ _ (by omega)]
  have c0 : check (∃ j ≤ gens.gensn.G.length, gens.gensn.G.length = 2 ^ j) = .ok () :=
    check_true ⟨k, by rw [hg.glen]; exact Nat.lt_two_pow_self.le, hg.glen⟩
  unfold BulletProof.prove
  simp only [c0, hlog, ok_bind, check_true (hx.trans hg.glen.symm), check_true (ha.trans hg.glen.symm),
    check_true (show (List.ofFn B).length = 2 * k by simp), hs]
  rw [show dlTr E tr a (lc x gens.gensn.G + bx • h) (y • g0 + bY • h) =
    (((tr.protocol "dot product proof (log)").point "Cx" (E.compress (lc x gens.gensn.G + bx • h))).point
      "Cy" (E.compress (y • g0 + bY • h))).scalars "a" a ++ [Msg.chal "r"] from rfl]
  generalize bulletLoop E _ h k gens.gensn.G x a _ _ _ = w
  cases w with
  | error e => rfl
  | ok w => 
    obtain ⟨Ls, Rs, xh, ah, gh, rh, tr'⟩ := w
    simp only [ok_bind, pure_ok, commit1_single]
    rfl

theorem dotlog_coupled (E : Env F G P) {gens : DotGens G} {k : Nat} {g0 h : G} (hg : gens.WF k g0 h)
    (hh : Function.Bijective fun s : F => s • h) (tr : Tr F P) {x x' a : List F}
    {bx bx' y y' bY bY' : F} (hx : x.length = 2 ^ k) (hx' : x'.length = 2 ^ k) (ha : a.length = 2 ^ k)
    (hy : dot x a = y) (hy' : dot x' a = y') {Cx Cy : G}
    (hCx : lc x gens.gensn.G + bx • h = Cx) (hCx' : lc x' gens.gensn.G + bx' • h = Cx)
    (hCy : y • g0 + bY • h = Cy) (hCy' : y' • g0 + bY' • h = Cy) :
    ∃ σ : ((F × F × F) × (Fin (2 * k) → F × F)) ≃ ((F × F × F) × (Fin (2 * k) → F × F)), ∀ d,
      (∃ pf tr', ∀ t,
        DotProductProofLog.prove E gens tr ((layDL F k).put d t) x bx a y bY =
          .ok (pf, E.compress Cx, E.compress Cy, tr', t) ∧
        DotProductProofLog.prove E gens tr ((layDL F k).put (σ d) t) x' bx' a y' bY' =
          .ok (pf, E.compress Cx, E.compress Cy, tr', t)) ∨
      (∀ t, DotProductProofLog.prove E gens tr ((layDL F k).put d t) x bx a y bY = .error .panic ∧
        DotProductProofLog.prove E gens tr ((layDL F k).put (σ d) t) x' bx' a y' bY' = .error .panic) := by
  set r := E.hash (dlTr E tr a Cx Cy) with hr
  have hP : lc x gens.gensn.G + dot x a • r • g0 + (bx + r * bY) • h =
      lc x' gens.gensn.G + dot x' a • r • g0 + (bx' + r * bY') • h := by
    have e1 : lc x gens.gensn.G + dot x a • r • g0 + (bx + r * bY) • h = Cx + r • Cy := by
      rw [← hCx, ← hCy, hy]; module
    have e2 : lc x' gens.gensn.G + dot x' a • r • g0 + (bx' + r * bY') • h = Cx + r • Cy := by
      rw [← hCx', ← hCy', hy']; module
    rw [e1, e2]
  obtain ⟨τ, hτ⟩ := bulletLoop_coupled E (r • g0) hh.2 k gens.gensn.G x x' a (bx + r * bY) (bx' + r * bY')
    (2 * k) (dlTr E tr a Cx Cy) hg.glen hx hx' ha (by omega) hP
  -- the scalars drawn first depend on the outcome of the reduction
  have hlast : ∀ B, ∃ ρ : (F × F × F) ≃ (F × F × F), ∀ d,
      (∃ pf tr', ∀ t,
        DotProductProofLog.prove E gens tr ((layDL F k).put (d, B) t) x bx a y bY =
          .ok (pf, E.compress Cx, E.compress Cy, tr', t) ∧
        DotProductProofLog.prove E gens tr ((layDL F k).put (ρ d, τ B) t) x' bx' a y' bY' =
          .ok (pf, E.compress Cx, E.compress Cy, tr', t)) ∨
      (∀ t, DotProductProofLog.prove E gens tr ((layDL F k).put (d, B) t) x bx a y bY = .error .panic ∧
        DotProductProofLog.prove E gens tr ((layDL F k).put (ρ d, τ B) t) x' bx' a y' bY' =
          .error .panic) := by
    intro B
    rcases hτ B with ⟨Ls, Rs, ah, ah', bh, gh, bf, bf', tr', r1, r2, he⟩ | ⟨r1, r2⟩
    · obtain ⟨v2, hv2⟩ := hh.2 (-((ah * bh - ah' * bh) • gh))
      obtain ⟨v3, hv3⟩ := hh.2 (-((ah * bh - ah' * bh) • r • g0))
      simp only at hv2 hv3
      obtain ⟨L, hLd⟩ : ∃ L : F × F × F → G × G, ∀ d1 d2 d3, L (d1, d2, d3) =
        (d1 • gh + d2 • h, d1 • r • g0 + d3 • h) :=
        ⟨fun d => (d.1 • gh + d.2.1 • h, d.1 • r • g0 + d.2.2 • h), fun _ _ _ => rfl⟩
      have hL : ∀ (d : F × F × F) (s : F), L (d + s • (ah * bh - ah' * bh, v2, v3)) = L d := by
        rintro ⟨d1, d2, d3⟩ s
        rw [Prod.smul_mk, Prod.smul_mk, Prod.mk_add_mk, Prod.mk_add_mk, hLd, hLd]
        simp only [smul_eq_mul, Prod.mk.injEq]
        constructor
        · rw [show (d1 + s * (ah * bh - ah' * bh)) • gh + (d2 + s * v2) • h = d1 • gh + d2 • h +
            s • ((ah * bh - ah' * bh) • gh + v2 • h) by module, hv2, add_neg_cancel, smul_zero, add_zero]
        · rw [show (d1 + s * (ah * bh - ah' * bh)) • r • g0 + (d3 + s * v3) • h = d1 • r • g0 + d3 • h +
            s • ((ah * bh - ah' * bh) • r • g0 + v3 • h) by module, hv3, add_neg_cancel, smul_zero,
            add_zero]
      have hz : bh * bf = bh * bf' + bh * v3 + v2 := by
        apply hh.1
        simp only
        have : (bh * bf' + bh * v3 + v2) • h = bh • bf' • h + bh • v3 • h + v2 • h := by module
        rw [this, hv2, hv3]
        have e := congrArg (fun z => bh • z) he
        have e1 : (bh * bf) • h = bh • (ah • gh + (ah * bh) • r • g0 + bf • h) -
          (bh * ah) • gh - (bh * ah * bh) • r • g0 := by module
        rw [e1, e]
        module
      refine ⟨kerShear L (fun p => E.hash (dlTr2 E tr' p.1 p.2)) _ hL, ?_⟩
      rintro ⟨d1, d2, d3⟩
      left
      obtain ⟨c, hc⟩ : ∃ c, c = E.hash (dlTr2 E tr' (d1 • gh + d2 • h) (d1 • r • g0 + d3 • h)) := ⟨_, rfl⟩
      refine ⟨⟨⟨Ls, Rs⟩, E.compress (d1 • gh + d2 • h), E.compress (d1 • r • g0 + d3 • h),
        d1 + c * (ah * bh), bh * (c * bf + d3) + d2⟩,
        dlTr2 E tr' (d1 • gh + d2 • h) (d1 • r • g0 + d3 • h), fun t => ⟨?_, ?_⟩⟩
      · rw [dotlog_prove_eq E hg tr t hx ha hCx hCy]
        simp only [← hr, r1, ok_bind, ← hc]
        rfl
      · rw [kerShear_apply]
        have h2 := hL (d1, d2, d3) c
        rw [Prod.smul_mk, Prod.smul_mk, Prod.mk_add_mk, Prod.mk_add_mk, hLd, hLd] at h2
        simp only [Prod.smul_mk, Prod.mk_add_mk, Prod.mk.injEq, hLd, smul_eq_mul] at h2 ⊢
        rw [← hc, dotlog_prove_eq E hg tr t hx' ha hCx' hCy']
        simp only [← hr, r2, ok_bind, h2.1, h2.2, ← hc]
        rw [pure_ok]
        congr 3
        · ring
        · linear_combination (-c) * hz
    · refine ⟨Equiv.refl _, ?_⟩
      rintro ⟨d1, d2, d3⟩
      right
      intro t
      rw [Equiv.refl_apply, dotlog_prove_eq E hg tr t hx ha hCx hCy,
        dotlog_prove_eq E hg tr t hx' ha hCx' hCy']
      simp only [← hr, r1, r2]
      exact ⟨rfl, rfl⟩
  choose ρ hρ using hlast
  refine ⟨(Equiv.prodComm _ _).trans ((Equiv.prodShear τ ρ).trans (Equiv.prodComm _ _)), ?_⟩
  rintro ⟨d, B⟩
  exact hρ B d

end Spartan
